import Verif.Lemmas.Machine

/-!
# For `Props/Exact2.lean`
-/

namespace RL

/-- A product with overflow checks fails only by an overflow. -/
theorem foldlM_debug_error : ∀ {l : List Nat} {a : Nat} {e : Fail}, l.foldlM (mulU .debug) a = .error e → e = .panic .overflow := by
  intro l
  induction l with
  | nil => intro a e h; cases h
  | cons d l ih =>
    intro a e h
    rw [List.foldlM_cons] at h
    cases hm : mulU .debug a d with
    | ok b => rw [hm, R.bind_ok] at h; exact ih h
    | error e' =>
      rw [hm] at h
      have he : e' = e := by injection h
      subst he
      unfold mulU wrapU at hm
      split at hm
      · cases hm
      · cases hm; rfl

end RL
