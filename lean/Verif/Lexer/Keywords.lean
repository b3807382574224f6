import Verif.Basic

/-! # `src/lexer/keywords.rs` and the two derive macros of `lolcode-ast-derive` -/

namespace Lol

/-- `src/lexer/keywords.rs:15-77`, variants in declaration order. -/
inductive Keyword where
  | BTW | HAS_A | OBTW | SRS | TLDR | BUKKIT | HAI | KTHXBYE | I_HAS_A | ITZ | NOOB | TROOF | FAIL
  | WIN | NUMBR | NUMBAR | YARN | MKAY | AN | SUM_OF | DIFF_OF | PRODUKT_OF | QUOSHUNT_OF | MOD_OF
  | BIGGR_OF | SMALLR_OF | BOTH_SAEM | BOTH_OF | EITHER_OF | WON_OF | NOT | UPPIN | NERFIN | ALL_OF
  | ANY_OF | DIFFRINT | SMOOSH | MAEK | IS_NOW | VISIBLE | GIMMEH | O_RLY | YA_RLY | NO_WAI | OIC
  | MEBBE | WTF | OMGWTF | OMG | GTFO | IM_IN_YR | YR | TIL | WILE | IM_OUTTA_YR | HOW_IZ_I
  | IF_U_SAY_SO | FOUND_YR | I_IZ | R | A
  deriving DecidableEq, Repr

namespace Keyword

/-- `ALL_SYMBOLS`, the array generated by `#[derive(IterableEnum)]`
(`lolcode-ast-derive/src/lib.rs:33-61`): all variants in declaration order. -/
def all : List Keyword :=
  [BTW, HAS_A, OBTW, SRS, TLDR, BUKKIT, HAI, KTHXBYE, I_HAS_A, ITZ, NOOB, TROOF, FAIL, WIN, NUMBR,
   NUMBAR, YARN, MKAY, AN, SUM_OF, DIFF_OF, PRODUKT_OF, QUOSHUNT_OF, MOD_OF, BIGGR_OF, SMALLR_OF,
   BOTH_SAEM, BOTH_OF, EITHER_OF, WON_OF, NOT, UPPIN, NERFIN, ALL_OF, ANY_OF, DIFFRINT, SMOOSH, MAEK,
   IS_NOW, VISIBLE, GIMMEH, O_RLY, YA_RLY, NO_WAI, OIC, MEBBE, WTF, OMGWTF, OMG, GTFO, IM_IN_YR, YR,
   TIL, WILE, IM_OUTTA_YR, HOW_IZ_I, IF_U_SAY_SO, FOUND_YR, I_IZ, R, A]

/-- The variant's identifier, as the derive macro sees it (`variant.ident`,
`lolcode-ast-derive/src/lib.rs:16`; variants at `src/lexer/keywords.rs`). -/
def ident : Keyword → Str
  | BTW => chars!"BTW" | HAS_A => chars!"HAS_A" | OBTW => chars!"OBTW" | SRS => chars!"SRS"
  | TLDR => chars!"TLDR" | BUKKIT => chars!"BUKKIT" | HAI => chars!"HAI"
  | KTHXBYE => chars!"KTHXBYE" | I_HAS_A => chars!"I_HAS_A" | ITZ => chars!"ITZ"
  | NOOB => chars!"NOOB" | TROOF => chars!"TROOF" | FAIL => chars!"FAIL" | WIN => chars!"WIN"
  | NUMBR => chars!"NUMBR" | NUMBAR => chars!"NUMBAR" | YARN => chars!"YARN" | MKAY => chars!"MKAY"
  | AN => chars!"AN" | SUM_OF => chars!"SUM_OF" | DIFF_OF => chars!"DIFF_OF"
  | PRODUKT_OF => chars!"PRODUKT_OF" | QUOSHUNT_OF => chars!"QUOSHUNT_OF" | MOD_OF => chars!"MOD_OF"
  | BIGGR_OF => chars!"BIGGR_OF" | SMALLR_OF => chars!"SMALLR_OF" | BOTH_SAEM => chars!"BOTH_SAEM"
  | BOTH_OF => chars!"BOTH_OF" | EITHER_OF => chars!"EITHER_OF" | WON_OF => chars!"WON_OF"
  | NOT => chars!"NOT" | UPPIN => chars!"UPPIN" | NERFIN => chars!"NERFIN" | ALL_OF => chars!"ALL_OF"
  | ANY_OF => chars!"ANY_OF" | DIFFRINT => chars!"DIFFRINT" | SMOOSH => chars!"SMOOSH"
  | MAEK => chars!"MAEK" | IS_NOW => chars!"IS_NOW" | VISIBLE => chars!"VISIBLE"
  | GIMMEH => chars!"GIMMEH" | O_RLY => chars!"O_RLY" | YA_RLY => chars!"YA_RLY"
  | NO_WAI => chars!"NO_WAI" | OIC => chars!"OIC" | MEBBE => chars!"MEBBE" | WTF => chars!"WTF"
  | OMGWTF => chars!"OMGWTF" | OMG => chars!"OMG" | GTFO => chars!"GTFO" | IM_IN_YR => chars!"IM_IN_YR"
  | YR => chars!"YR" | TIL => chars!"TIL" | WILE => chars!"WILE"
  | IM_OUTTA_YR => chars!"IM_OUTTA_YR" | HOW_IZ_I => chars!"HOW_IZ_I"
  | IF_U_SAY_SO => chars!"IF_U_SAY_SO" | FOUND_YR => chars!"FOUND_YR" | I_IZ => chars!"I_IZ"
  | R => chars!"R" | A => chars!"A"

/-- `to_string_slice` (`keywords.rs:87`): the derive macro `ToStringSlice`
(`lolcode-ast-derive/src/lib.rs:18-20`) emits the variant name with every `_` replaced by a space. -/
def text (k : Keyword) : Str := k.ident.map (fun c => if c = '_' then ' ' else c)

end Keyword

end Lol
