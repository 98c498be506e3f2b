import Verif.SpecMachine
import Verif.Lemmas.Construct
import Verif.Lemmas.Heap

/-!
# `usize` arithmetic without overflow
-/

namespace RL

open Spec

theorem usizeEnd_eq : usizeEnd = 2 ^ 64 := by decide

theorem wrapU_ok {p : Profile} {x : Nat} (h : x < 2 ^ 64) : wrapU p x = .ok x := by
  unfold wrapU; rw [if_pos (by rw [usizeEnd_eq]; exact h)]

theorem subU_ok {p : Profile} {a b : Nat} (h : b ≤ a) : subU p a b = .ok (a - b) := by
  unfold subU; rw [if_pos h]

theorem one_le_prod_max (l : List Nat) : 1 ≤ (l.map (max 1)).prod := by
  induction l with
  | nil => simp
  | cons a l ih =>
    rw [List.map_cons, List.prod_cons]
    exact Nat.mul_pos (by omega) ih

theorem prod_le_prod_max (l : List Nat) : l.prod ≤ (l.map (max 1)).prod := by
  induction l with
  | nil => simp
  | cons a l ih =>
    rw [List.map_cons, List.prod_cons, List.prod_cons]
    exact Nat.mul_le_mul (le_max_right _ _) ih

theorem foldlM_mulU {p : Profile} : ∀ (l : List Nat) (a : Nat), a * (l.map (max 1)).prod < 2 ^ 64 → l.foldlM (mulU p) a = .ok (a * l.prod) := by
  intro l
  induction l with
  | nil => intro a _; simp
  | cons d l ih =>
    intro a h
    rw [List.map_cons, List.prod_cons, ← mul_assoc] at h
    have h1 : a * d ≤ a * max 1 d := Nat.mul_le_mul_left _ (le_max_right _ _)
    have h2 : a * d * (l.map (max 1)).prod < 2 ^ 64 := lt_of_le_of_lt (Nat.mul_le_mul_right _ h1) h
    have h3 : a * d < 2 ^ 64 := lt_of_le_of_lt (Nat.le_mul_of_pos_right _ (one_le_prod_max l)) h2
    rw [List.foldlM_cons, mulU, wrapU_ok h3, R.bind_ok, ih _ h2, List.prod_cons, mul_assoc]

theorem prodU_fits {p : Profile} {shape : List Nat} (h : Fits shape) : prodU p shape = .ok shape.prod := by
  rw [prodU, foldlM_mulU _ _ (by simpa [Fits] using h), one_mul]

theorem foldlM_release : ∀ (l : List Nat) (a : Nat), a < 2 ^ 64 → l.foldlM (mulU .release) a = .ok (a * l.prod % 2 ^ 64) := by
  intro l
  induction l with
  | nil => intro a h; rw [List.prod_nil, mul_one, Nat.mod_eq_of_lt h]; rfl
  | cons d l ih =>
    intro a h
    have : mulU .release a d = .ok (a * d % 2 ^ 64) := by
      unfold mulU wrapU; rw [usizeEnd_eq]
      split
      · next h1 => rw [Nat.mod_eq_of_lt h1]
      · rfl
    rw [List.foldlM_cons, this, R.bind_ok, ih _ (Nat.mod_lt _ (by norm_num)), List.prod_cons, Nat.mod_mul_mod, mul_assoc]

theorem foldlM_debug : ∀ (l : List Nat) (a n : Nat), a < 2 ^ 64 → (l.foldlM (mulU .debug) a = .ok n ↔
    n = a * l.prod ∧ ∀ k, a * (l.take k).prod < 2 ^ 64) := by
  intro l
  induction l with
  | nil =>
    intro a n h
    simp only [List.foldlM_nil, R.pure_eq_ok, List.prod_nil, mul_one, List.take_nil]
    exact ⟨fun e => ⟨e.symm, fun _ => h⟩, fun e => e.1.symm⟩
  | cons d l ih =>
    intro a n h
    by_cases h1 : a * d < 2 ^ 64
    · rw [List.foldlM_cons, mulU, wrapU_ok h1, R.bind_ok, ih _ _ h1, List.prod_cons, mul_assoc]
      refine and_congr_right fun _ => ⟨fun h2 k => ?_, fun h2 k => ?_⟩
      · rcases k with _ | k
        · simpa using h
        · rw [List.take_succ_cons, List.prod_cons, ← mul_assoc]; exact h2 k
      · have := h2 (k + 1)
        rwa [List.take_succ_cons, List.prod_cons, ← mul_assoc] at this
    · have : mulU .debug a d = R.panic .overflow := by
        unfold mulU wrapU; rw [usizeEnd_eq, if_neg h1]
      rw [List.foldlM_cons, this]
      constructor
      · intro e; cases e
      · rintro ⟨_, h2⟩
        have := h2 1
        simp at this
        exact absurd this h1

theorem globalIndexLoopU_eq {p : Profile} {shapeLen : Nat} {offset : Option (List SliceRange)} :
    ∀ (l : List (Nat × Nat)) (n g m : Nat), n + l.length ≤ shapeLen → g < m → m * ((l.map Prod.fst).map (max 1)).prod < 2 ^ 64 →
      (∀ x ∈ l, x.2 < 2 ^ 64) →
      (∀ rs, offset = some rs → ∀ r ∈ rs, r.start ≤ r.stop ∧ r.stop < 2 ^ 64 ∧ (p = .debug → ∀ x ∈ l, r.start + x.2 < 2 ^ 64)) →
      globalIndexLoopU p shapeLen offset l n g m = globalIndexLoop shapeLen offset l n g m := by
  intro l
  induction l with
  | nil => intro n g m _ _ _ _ _; rfl
  | cons x l ih =>
    intro n g m hn hg hm hi ho
    obtain ⟨dim, idx⟩ := x
    rw [globalIndexLoopU, globalIndexLoop, subU_ok (by simp at hn; omega), R.bind_ok, subU_ok (by simp at hn; omega), R.bind_ok]
    simp only [List.map_cons, List.prod_cons] at hm
    have ho' : ∀ rs, offset = some rs → ∀ r ∈ rs, r.start ≤ r.stop ∧ r.stop < 2 ^ 64 ∧ (p = .debug → ∀ x ∈ l, r.start + x.2 < 2 ^ 64) :=
      fun rs h1 r hr => ⟨(ho rs h1 r hr).1, (ho rs h1 r hr).2.1, fun hp y hy => (ho rs h1 r hr).2.2 hp y (by simp [hy])⟩
    have hi' : ∀ x ∈ l, x.2 < 2 ^ 64 := fun y hy => hi y (by simp [hy])
    have hn' : n + 1 + l.length ≤ shapeLen := by simp at hn; omega
    split
    · next hd =>
      subst hd
      exact ih _ _ _ hn' hg (by simpa using hm) hi' ho'
    · next hd =>
      -- the rest, for a shifted index that is in range
      have key : ∀ s : Nat, s < dim → (do
          let step ← mulU p s m
          let globalIdx ← addU p g step
          let multiplier ← mulU p m dim
          globalIndexLoopU p shapeLen offset l (n + 1) globalIdx multiplier) =
          globalIndexLoop shapeLen offset l (n + 1) (g + s * m) (m * dim) := by
        intro s hs
        have h1 : m * dim * ((l.map Prod.fst).map (max 1)).prod < 2 ^ 64 := by
          rw [mul_assoc]; rwa [max_eq_right (by omega)] at hm
        have h2 : m * dim < 2 ^ 64 := lt_of_le_of_lt (Nat.le_mul_of_pos_right _ (one_le_prod_max _)) h1
        have h3 : g + s * m < m * dim := by
          calc g + s * m < m + s * m := by omega
            _ = m * (s + 1) := by ring
            _ ≤ m * dim := Nat.mul_le_mul_left _ (by omega)
        rw [mulU, wrapU_ok (by omega), R.bind_ok, addU, wrapU_ok (by omega), R.bind_ok, mulU, wrapU_ok h2, R.bind_ok]
        exact ih _ _ _ hn' h3 h1 hi' ho'
      cases offset with
      | none =>
        simp only [pure_bind]
        split
        · rfl
        · exact key idx (by omega)
      | some rs =>
        simp only [bind_assoc, pure_bind]
        cases hr : rs[shapeLen - n - 1]? with
        | none => simp only [idxR, hr]; rfl
        | some r =>
          obtain ⟨h1, h2, h3⟩ := ho rs rfl r (List.mem_of_getElem? hr)
          have hidx : idx < 2 ^ 64 := hi (dim, idx) (by simp)
          simp only [idxR, hr, R.bind_ok, subU_ok h1, subR, if_pos h1]
          by_cases h4 : r.start + idx < 2 ^ 64
          · rw [addU, wrapU_ok h4, R.bind_ok]
            split
            · rfl
            · split
              · rfl
              · exact key _ (by omega)
          · have hp : p = .release := by
              cases p with
              | debug => exact absurd (h3 rfl (dim, idx) (by simp)) h4
              | release => rfl
            subst hp
            have : addU .release r.start idx = .ok ((r.start + idx) % usizeEnd) := by
              unfold addU wrapU; rw [usizeEnd_eq, if_neg h4]
            rw [this, R.bind_ok, if_pos (by omega), if_pos (by omega)]

theorem map_fst_zip_take {α β : Type} : ∀ (l : List α) (r : List β), (l.zip r).map Prod.fst = l.take r.length := by
  intro l
  induction l with
  | nil => intro r; simp
  | cons a l ih =>
    intro r
    cases r with
    | nil => simp
    | cons b r => simp [ih]

theorem globalIndexU_eq {p : Profile} {index shape : List Nat} {offset : Option (List SliceRange)} (hs : Fits shape) (hi : ∀ i ∈ index, i < 2 ^ 64)
    (ho : ∀ rs, offset = some rs → ∀ r ∈ rs, r.start ≤ r.stop ∧ r.stop < 2 ^ 64 ∧ (p = .debug → ∀ i ∈ index, r.start + i < 2 ^ 64)) :
    globalIndexU p index shape offset = globalIndex index shape offset := by
  rw [globalIndexU, globalIndex]
  split
  · rfl
  · have hmem : ∀ x ∈ shape.reverse.zip index.reverse, x.2 ∈ index := fun x hx => by
      have := (List.of_mem_zip (a := x.1) (b := x.2) hx).2
      simpa using this
    refine globalIndexLoopU_eq _ _ _ _ (by simp) (by omega) ?_ (fun x hx => hi _ (hmem x hx)) ?_
    · rw [one_mul, map_fst_zip_take]
      have h1 : shape.reverse.take index.reverse.length ++ shape.reverse.drop index.reverse.length = shape.reverse := List.take_append_drop _ _
      have h2 : ((shape.reverse).map (max 1)).prod = (shape.map (max 1)).prod := by
        rw [List.map_reverse, List.prod_reverse]
      rw [Fits, ← h2, ← h1, List.map_append, List.prod_append] at hs
      exact lt_of_le_of_lt (Nat.le_mul_of_pos_right _ (one_le_prod_max _)) hs
    · intro rs h1 r hr
      obtain ⟨h2, h3, h4⟩ := ho rs h1 r hr
      exact ⟨h2, h3, fun hp x hx => h4 hp _ (hmem x hx)⟩

end RL
