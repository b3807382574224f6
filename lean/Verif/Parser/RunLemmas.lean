import Verif.Parser.SplitLemmas
import Verif.Parser.Exec

/-! # Running on an iterator and running on the statements left in it -/

namespace Lol

open StatementIterator

theorem statement_zero {s : StatementIterator} (h : s.Sound) : s.statement 0 = s.abs.cur := by
  rw [statement_abs s h]; rfl

theorem run_sound {α : Type} (p : Prog α) (s : StatementIterator) (h : s.Sound) :
    (∀ a s', p.run ops s = .ok a s' → s'.Sound) ∧ ∀ e s', p.run ops s = .err e s' → s'.Sound := by
  induction p generalizing s with
  | ret a => exact ⟨fun _ _ e => (by cases e; exact h), fun _ _ e => (by cases e)⟩
  | err a => exact ⟨fun _ _ e => (by cases e), fun _ _ e => (by cases e; exact h)⟩
  | panic | outOfFuel => exact ⟨fun _ _ e => (by cases e), fun _ _ e => (by cases e)⟩
  | next k ih => exact ih _ _ (next_sound s)
  | peek k ih => exact ih _ _ (peek_sound s h)
  | nextStatement k ih => exact ih _ _ (nextStatement_abs s h).2

theorem run_ok_exec {α : Type} {p : Prog α} {s s' : StatementIterator} {a : α} (h : s.Sound)
    (hr : p.run ops s = .ok a s') : exec p s.abs = .ok a s'.abs := by
  rw [exec, run_abs p s h, hr]; rfl

theorem exec_ok_run {α : Type} {p : Prog α} {s : StatementIterator} {t : Stmts} {a : α} (h : s.Sound)
    (hr : exec p s.abs = .ok a t) : ∃ s', p.run ops s = .ok a s' ∧ s'.abs = t := by
  rw [exec, run_abs p s h] at hr
  revert hr
  cases p.run ops s <;> simp [Res.map] <;> rintro rfl rfl <;> exact ⟨_, ⟨rfl, rfl⟩, rfl⟩

end Lol
