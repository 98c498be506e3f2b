import Verif.Lemmas.Exact2
import Verif.Props.Machine2
import Verif.Props.Debug
import Verif.Props.Iter

/-!
# Exactly when C71, C84, C87 and C88 hold

The statements of the four properties are false in general. Here is, for each, the condition on one call (or one program) under which
it holds.
-/

namespace RL

open Spec Relation

section
variable {T : Type}

/-- C71, exactly, debug profile: `new` with 64 bit arithmetic does the same as with unbounded numbers if and only if no intermediate
product of the dimensions overflows. -/
theorem C71_exact_debug (array : List T) (shape : List Nat) :
    Raw.newU .debug array shape = Raw.new array shape ↔ ∀ k, (shape.take k).prod < 2 ^ 64 := by
  have hd : ∀ n, prodU .debug shape = .ok n ↔ n = shape.prod ∧ ∀ k, (shape.take k).prod < 2 ^ 64 := by
    intro n
    have := foldlM_debug shape 1 n (by norm_num)
    simpa only [prodU, one_mul] using this
  constructor
  · intro h
    by_contra hk
    cases hp : prodU .debug shape with
    | ok n => exact hk ((hd n).1 hp).2
    | error e =>
      have he := foldlM_debug_error hp
      subst he
      rw [Raw.newU, hp] at h
      unfold Raw.new at h
      by_cases hl : shape.foldl (· * ·) 1 == array.length
      · simp [assertR, hl, bind, Except.bind, pure, Except.pure] at h
      · simp [assertR, hl, bind, Except.bind, pure, Except.pure, R.panic] at h
  · intro hk
    rw [Raw.newU, (hd _).2 ⟨rfl, hk⟩, R.bind_ok, Raw.new, foldl_mul_eq, one_mul]

/-- C71, exactly, release profile: `new` does the same as with unbounded numbers unless the product of the dimensions is at least `2^64` and,
wrapped, happens to be the number of elements given. -/
theorem C71_exact_release (array : List T) (shape : List Nat) (hl : array.length < 2 ^ 64) :
    Raw.newU .release array shape = Raw.new array shape ↔ ¬ (2 ^ 64 ≤ shape.prod ∧ array.length = shape.prod % 2 ^ 64) := by
  rw [Raw.newU, prodU, foldlM_release _ _ (by norm_num), R.bind_ok, one_mul, Raw.new, foldl_mul_eq, one_mul]
  by_cases h1 : shape.prod < 2 ^ 64
  · rw [Nat.mod_eq_of_lt h1]
    simp only [true_iff]
    omega
  · have h2 : (shape.prod == array.length) = false := by
      rw [beq_eq_false_iff_ne]; omega
    rw [h2]
    by_cases h3 : shape.prod % 2 ^ 64 = array.length
    · rw [h3]
      simp only [beq_self_eq_true]
      constructor
      · intro h; cases h
      · intro h; exact absurd ⟨by omega, trivial⟩ h
    · rw [beq_eq_false_iff_ne.2 h3]
      simp only [true_iff]
      intro h
      exact h3 h.2.symm

/-- TEST: the two exceptions of `C71_false`, and a shape on which everything agrees. -/
example : (∀ k, (([2 ^ 31, 0, 2 ^ 40] : List Nat).take k).prod < 2 ^ 64) ∧ ¬ (∀ k, (([2 ^ 63, 4, 0] : List Nat).take k).prod < 2 ^ 64) ∧
    (2 ^ 64 ≤ ([2 ^ 32, 2 ^ 32] : List Nat).prod ∧ ([] : List Nat).length = ([2 ^ 32, 2 ^ 32] : List Nat).prod % 2 ^ 64) := by
  refine ⟨fun k => ?_, fun h => absurd (h 2) (by decide), by decide⟩
  match k with
  | 0 => decide
  | 1 => decide
  | 2 => decide
  | k + 3 => simp

/-- C88, exactly: `iter_indices` returns the indices of the tensor, in row-major order, and then `None` for ever, if and only if no dimension is
zero, in both profiles. -/
theorem C88_exact (p : Profile) (shape : List Nat) (hs : ∀ d ∈ shape, d < 2 ^ 64) :
    (∀ k, (IndexIter.new shape).calls p k = .ok (allIndices shape)[k]?) ↔ 0 ∉ shape := by
  constructor
  · intro h h0
    have he : allIndices shape = [] := by
      rw [← List.length_eq_zero_iff, allIndices_length]
      exact List.prod_eq_zero h0
    have h1 := h 0
    rw [he] at h1
    cases p with
    | release =>
      obtain ⟨idx, h2⟩ := C88_release_zero shape hs h0 0 (by norm_num)
      rw [h2] at h1; simp at h1
    | debug =>
      obtain ⟨a, b, rfl, hb⟩ : ∃ a b, shape = a ++ 0 :: b ∧ 0 ∉ b := by
        clear h h1 he hs
        induction shape with
        | nil => simp at h0
        | cons d l ih =>
          by_cases hl : 0 ∈ l
          · obtain ⟨a, b, e, hb⟩ := ih hl
            exact ⟨d :: a, b, by rw [e]; rfl, hb⟩
          · rcases List.mem_cons.1 h0 with rfl | h0
            · exact ⟨[], l, rfl, hl⟩
            · exact absurd h0 hl
      rw [C88_debug a b (fun d hd => Nat.pos_of_ne_zero fun h2 => hb (h2 ▸ hd)) hs 0] at h1
      split at h1 <;> simp at h1
  · intro h0 k
    exact C88_partial p shape (fun d hd => ⟨Nat.pos_of_ne_zero fun h2 => h0 (h2 ▸ hd), hs d hd⟩) k

/-- TEST: both sides of `C88_exact` for the shapes `[2, 1]` and `[2, 0]`. -/
example : (0 ∉ ([2, 1] : List Nat) ∧ (IndexIter.new [2, 1]).calls .debug 1 = .ok (some [1, 0]) ∧
      (IndexIter.new [2, 1]).calls .debug 2 = .ok none) ∧
    0 ∈ ([2, 0] : List Nat) ∧ (IndexIter.new [2, 0]).calls .debug 0 = .ok (some [0, 0]) := by
  decide

end

section
variable {T : Type} [Zero T] [One T] [Add T] [Mul T] [Sub T] [Neg T] [LT T] [DecidableLT T] [LE T] [DecidableLE T] [RealFn T]

/-- C84, exactly: a program has the same outcome in both profiles if and only if in the debug profile it ends neither with an overflow nor
with a failed `debug_assert`. -/
theorem C84_exact (ops : List (Op T)) : runOpsU .debug [] ops = runOpsU .release [] ops ↔
    runOpsU .debug [] ops ≠ .error (.panic .overflow) ∧ runOpsU .debug [] ops ≠ .error (.panic .debugAssert) := by
  constructor
  · intro h
    rw [h]
    exact C84_release [] ops
  · rintro ⟨h1, h2⟩
    rcases C84_partial ops with h | h | h
    · exact absurd h h1
    · exact absurd h h2
    · exact h.1.symm

/-- C87, exactly: `{:?}` ends and prints each tensor referred to once if and only if there is only one way to each of them. -/
theorem C87_exact (h : Heap T) (hr : Reachable h) (t : Nat) (ht : t < h.length) :
    (∃ stack out, debugFmt h stack 0 t = .ok out ∧ (out.map Shown.id).Nodup ∧
      ∀ i, i ∈ out.map Shown.id ↔ ReflTransGen (Refers h) t i) ↔
    ∀ i p q, OwnPath h t i p → OwnPath h t i q → p = q := by
  constructor
  · rintro ⟨stack, out, e, hn, _⟩ i p q hp hq
    obtain ⟨ps, h1, h2, h3⟩ := C87_paths h t stack out e
    have key : ∀ {p}, OwnPath h t i p → ∃ k, ∃ hk : k < ps.length, ps[k] = p ∧
        (out.map Shown.id)[k]'(by rw [List.length_map, h3.length_eq]; exact hk) = i := by
      intro p hp
      obtain ⟨k, hk, rfl⟩ := List.getElem_of_mem ((h2 p).2 ⟨i, hp⟩)
      have hk' : k < out.length := by rw [h3.length_eq]; exact hk
      have h4 := (h3.get hk' hk).1
      simp only [List.get_eq_getElem] at h4
      exact ⟨k, hk, rfl, by rw [List.getElem_map]; exact h4.end_unique hp⟩
    obtain ⟨k, hk, rfl, e1⟩ := key hp
    obtain ⟨l, hl, rfl, e2⟩ := key hq
    have := (List.Nodup.getElem_inj_iff hn).1 (e1.trans e2.symm)
    subst this
    rfl
  · intro hu
    have hro := hr.good.refsOk
    obtain ⟨stack, out, e⟩ := (C87_ends h hr t ht).2 (by
      intro j h1 h2
      obtain ⟨p, hp⟩ := ownPath_of_refers hro ht h1
      obtain ⟨k, h3, h4⟩ := TransGen.head'_iff.1 h2
      obtain ⟨q, hq⟩ := ownPath_of_refers hro (hro _ _ h3) h4
      have hloop : ∃ q', q' ≠ [] ∧ OwnPath h j j q' := by
        rcases h3 with ⟨n, h5, h6⟩ | ⟨n, d, h5, h6, h7⟩
        · exact ⟨_, by simp, .grad h5 h6 hq⟩
        · obtain ⟨c, h8⟩ := List.mem_iff_getElem?.1 h7
          exact ⟨_, by simp, .input h5 h6 h8 hq⟩
      obtain ⟨q', h5, h6⟩ := hloop
      have h7 := hu j _ _ hp (hp.trans h6)
      exact h5 (by simpa using h7))
    refine ⟨stack, out, e, ?_, C87_all h hr t stack out e⟩
    obtain ⟨ps, h1, h2, h3⟩ := C87_paths h t stack out e
    have hps : ps.Nodup := h1.imp fun h => ne_of_lt h
    rw [List.nodup_iff_injective_getElem]
    rintro ⟨a, ha⟩ ⟨b, hb⟩ hab
    simp only [List.getElem_map] at hab
    rw [List.length_map] at ha hb
    have h4 := (h3.get ha (by rw [← h3.length_eq]; exact ha)).1
    have h5 := (h3.get hb (by rw [← h3.length_eq]; exact hb)).1
    simp only [List.get_eq_getElem] at h4 h5
    rw [← hab] at h5
    have := (List.Nodup.getElem_inj_iff hps).1 (hu _ _ _ h4 h5)
    subst this
    rfl

end

attribute [local instance] Test.intFn

/-- TEST: of `x + y` everything is printed once; of `x + x` not. -/
example : ((do
      let h ← runOps [] [Op.new [(3 : Int)] [1], .new [4] [1], .add 0 1]
      let out ← debugFmt h 2 0 2
      return out.map Shown.id) = (.ok [2, 0, 1] : R (List Nat))) ∧
    ((do
      let h ← runOps [] [Op.new [(3 : Int)] [1], .add 0 0]
      let out ← debugFmt h 2 0 1
      return out.map Shown.id) = (.ok [1, 0, 0] : R (List Nat))) := by
  constructor <;> decide +kernel

end RL
