import Verif.Parser.StmtSpec

/-! # Lines that close constructs (specification for C83) -/

namespace Lol

/-- What closes a construct: the statement after a loop, after a function, after a switch or a conditional, and the
empty statement that has to stand after a version, a function or a switch and that makes an empty body. -/
inductive Closer where
  | loop
  | function
  | oic
  | empty

/-- The statements that close: one for each of the closers. -/
inductive Closers : List Closer → List (List Token) → Prop
  | nil : Closers [] []
  | loop {ks C c l} : c.Is .IM_OUTTA_YR → l.IsIdent → Closers ks C → Closers (.loop :: ks) ([c, l] :: C)
  | function {ks C c} : c.Is .IF_U_SAY_SO → Closers ks C → Closers (.function :: ks) ([c] :: C)
  | oic {ks C c} : c.Is .OIC → Closers ks C → Closers (.oic :: ks) ([c] :: C)
  | empty {ks C} : Closers ks C → Closers (.empty :: ks) ([] :: C)

/-- The line that closes. The dots and the comma make an empty statement. -/
def Closer.line : Closer → Str
  | .loop => chars!"IM OUTTA YR l"
  | .function => chars!"IF U SAY SO"
  | .oic => chars!"OIC"
  | .empty => chars!"...,"

/-- The lines that close. -/
def closingLines (ks : List Closer) : Str := ks.flatMap fun k => k.line ++ ['\n']

end Lol
