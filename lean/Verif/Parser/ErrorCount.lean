import Verif.Parser.CoverSpec
import Verif.Parser.StmtSpec

/-! # Helper lemmas: a tree without errors has an empty list of errors -/

namespace Lol

mutual

theorem Node.errorFree_errors : (n : Node) → (n.ErrorFree ↔ n.errors = [])
  | .astError e => by simp [Node.ErrorFree, Node.errors]
  | .imInYr _ _ _ _ body _ => by
      have := errorFreeBlock_errors body
      simpa [Node.ErrorFree, Node.errors] using this
  | .wtf _ omgs omgWtf => by
      have h1 := errorFreeOmgs_errors omgs
      have h2 := errorFreeOmgWtf_errors omgWtf
      simp [Node.ErrorFree, Node.errors, h1, h2]
  | .oRly _ yaRly noWai mebbes => by
      have h1 := errorFreeYaRly_errors yaRly
      have h2 := errorFreeMebbes_errors mebbes
      have h3 := errorFreeNoWai_errors noWai
      simp [Node.ErrorFree, Node.errors, h1, h2, h3, and_comm]
  | .howIzI _ _ _ body => by
      have := errorFreeBlock_errors body
      simpa [Node.ErrorFree, Node.errors] using this
  | .iHasA _ | .hai _ | .bukkitSetSlot _ | .variableAssignment _ | .visible _ | .foundYr _ | .iIz _ | .gtfo _
  | .gimmeh _ | .expression _ | .kThxBye _ => by simp [Node.ErrorFree, Node.errors]

theorem errorFreeOmgs_errors : (l : List WtfOmg) → (errorFreeOmgs l ↔ errorsOmgs l = [])
  | [] => by simp [errorFreeOmgs, errorsOmgs]
  | .mk _ _ b :: rest => by
      have h1 := errorFreeBlock_errors b
      have h2 := errorFreeOmgs_errors rest
      simp [errorFreeOmgs, errorsOmgs, h1, h2]

theorem errorFreeOmgWtf_errors : (o : Option WtfOmgWtf) → (errorFreeOmgWtf o ↔ errorsOmgWtf o = [])
  | none => by simp [errorFreeOmgWtf, errorsOmgWtf]
  | some (.mk _ b) => by
      have h1 := errorFreeBlock_errors b
      simpa [errorFreeOmgWtf, errorsOmgWtf] using h1

theorem errorFreeYaRly_errors : (o : Option YaRly) → (errorFreeYaRly o ↔ errorsYaRly o = [])
  | none => by simp [errorFreeYaRly, errorsYaRly]
  | some (.mk _ b) => by
      have h1 := errorFreeBlock_errors b
      simpa [errorFreeYaRly, errorsYaRly] using h1

theorem errorFreeMebbes_errors : (l : List Mebbe) → (errorFreeMebbes l ↔ errorsMebbes l = [])
  | [] => by simp [errorFreeMebbes, errorsMebbes]
  | .mk _ _ b :: rest => by
      have h1 := errorFreeBlock_errors b
      have h2 := errorFreeMebbes_errors rest
      simp [errorFreeMebbes, errorsMebbes, h1, h2]

theorem errorFreeNoWai_errors : (o : Option NoWai) → (errorFreeNoWai o ↔ errorsNoWai o = [])
  | none => by simp [errorFreeNoWai, errorsNoWai]
  | some (.mk _ b) => by
      have h1 := errorFreeBlock_errors b
      simpa [errorFreeNoWai, errorsNoWai] using h1

theorem errorFreeBlock_errors : (b : List Node) → (errorFreeBlock b ↔ errorsBlock b = [])
  | [] => by simp [errorFreeBlock, errorsBlock]
  | n :: rest => by
      have h1 := Node.errorFree_errors n
      have h2 := errorFreeBlock_errors rest
      simp [errorFreeBlock, errorsBlock, h1, h2]

end

end Lol
