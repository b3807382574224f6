import Verif.Parser.StmtSpec

/-!
# The tokens that the tree leaves out (specification)
-/

namespace Lol

/-- Keywords that are always left out of the tree: they only mark the places of other parts. -/
def markers : List Keyword := [.HAS_A, .ITZ, .YR, .TIL, .WILE, .IM_OUTTA_YR, .IF_U_SAY_SO, .OIC]

/-- Such a keyword, or the `?` of `O RLY?` and `WTF?`. -/
def Token.isMarker (t : Token) : Bool :=
  match t.tokenType with
  | .keyword k => markers.contains k
  | .symbol s => s == ['?']
  | _ => false

/-- `AN` or `MKAY`. In the tree are those of expressions, but not those of calls and functions. -/
def Token.isAnOrMkay (t : Token) : Bool :=
  match t.tokenType with
  | .keyword k => k == .AN || k == .MKAY
  | _ => false

/-- The tokens that are neither. -/
def kept (ts : List Token) : List Token := ts.filter fun t => !(t.isMarker || t.isAnOrMkay)

end Lol
