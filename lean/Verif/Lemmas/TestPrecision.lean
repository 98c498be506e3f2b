import Verif.Lemmas.PrecisionRun

/-!
# Concrete runs for C108
-/

namespace RL

open Spec

/-- Exact arithmetic. -/
noncomputable def exactNumbers : Numbers ℝ where
  val := id
  fin _ := True
  u := 0
  eta := 0
  tau := 0
  u_nonneg := le_refl _
  eta_nonneg := le_refl _
  val_zero := rfl
  add := by simp
  zero_add := by simp
  mul := by simp
  neg := by simp
  val_one := rfl
  sub := by simp
  lt_zero := by simp
  zero_le := by simp
  abs := by simp [RealFn.abs]
  tanh := by simp [RealFn.tanh]
  powi2 := by simp [RealFn.powi2, pow_two]

theorem kink_run (x : ℝ) : ∃ h, runOps [] [.new [x] [1], .relu 0, .sum 1, .backward 3] = .ok h ∧ gradOf h 0 = some ⟨[0 + reluDeriv x * 1], [1]⟩ :=
  ⟨_, rfl, rfl⟩

theorem heapRel_gradOf {T S : Type} {K : JvpKind → Prop} {rel : T → S → Prop} {g : Heap T} {h : Heap S} (hh : HeapRel K rel g h) {t : Nat} {a : Raw T}
    (ha : gradOf g t = some a) : ∃ b, gradOf h t = some b ∧ RawRel rel a b := by
  simp only [gradOf, Option.bind_eq_some_iff, Option.map_eq_some_iff] at ha
  obtain ⟨n, hn, i, hi, m, hm, rfl⟩ := ha
  obtain ⟨n', hn', hnn⟩ := forall₂_get hh hn
  obtain ⟨m', hm', hmm⟩ := forall₂_get hh hm
  refine ⟨m'.val, ?_, hmm.1⟩
  simp [gradOf, hn', ← hnn.2.1, hi, hm']

section Int

/-- Only for concrete runs: there is no `tanh` in them. -/
local instance instRealFnInt : RealFn Int := ⟨id, fun a => if a < 0 then -a else a, fun a => a * a⟩

/-- The real number that an integer is. -/
def IsInt (z : Int) (x : ℝ) : Prop := x = z

def NoTanh (k : JvpKind) : Prop := k ≠ .tanh

theorem int_arith : Arith NoTanh IsInt where
  zero := by simp [IsInt]
  one := by simp [IsInt]
  add h1 h2 := by simp only [IsInt] at *; subst h1 h2; push_cast; rfl
  mul h1 h2 := by simp only [IsInt] at *; subst h1 h2; push_cast; rfl
  neg _ _ _ h := by simp only [IsInt] at *; subst h; push_cast; rfl

theorem int_functions : Functions NoTanh IsInt where
  relu _ a x h := by
    simp only [IsInt] at *
    subst h
    by_cases ha : a < 0
    · rw [if_pos ha, if_pos ha, if_pos (by exact_mod_cast ha), if_pos (by exact_mod_cast ha)]; simp
    · rw [if_neg ha, if_neg ha, if_neg (by exact_mod_cast ha), if_neg (by exact_mod_cast ha)]; simp
  abs _ a x h := by
    simp only [IsInt] at *
    subst h
    constructor
    · change |(a : ℝ)| = ((if a < 0 then -a else a : Int) : ℝ)
      by_cases ha : a < 0
      · rw [if_pos ha, abs_of_neg (by exact_mod_cast ha)]; push_cast; rfl
      · rw [if_neg ha, abs_of_nonneg (by exact_mod_cast not_lt.1 ha)]
    · by_cases ha : a ≥ 0
      · rw [if_pos ha, if_pos (by exact_mod_cast ha)]; simp
      · rw [if_neg ha, if_neg (by exact_mod_cast ha)]; simp
  tanh h := absurd rfl h

/-- No element that went into `relu` or `abs` is 0. -/
def noKinksInt (h : Heap Int) : Bool :=
  h.all fun n => match n.gradFn with
    | some d => !(d.kind == .relu || d.kind == .abs) || d.inputs.all fun a => match h[a]? with
      | some m => m.val.array.all (· != 0)
      | none => true
    | none => true

theorem noKinks_of_int {g : Heap Int} {r : Heap ℝ} (hr : HeapRel NoTanh IsInt g r) (hg : noKinksInt g = true) : NoKinks r := by
  intro i d a v hd hk ha hv x hx
  simp only [historyOf, dataOf, Option.map_eq_some_iff] at hd hv
  obtain ⟨n, hn, hnd⟩ := hd
  obtain ⟨m, hm, rfl⟩ := hv
  obtain ⟨n', hn', hnn⟩ := forall₂_get hr.flip hn
  obtain ⟨m', hm', hmm⟩ := forall₂_get hr.flip hm
  obtain ⟨z, hz, hxz⟩ := forall₂_exists' hmm.1.1 hx
  have h1 := List.all_eq_true.1 hg n' (List.mem_of_getElem? hn')
  rw [hnn.2.2.1, hnd] at h1
  have hk' : (d.kind == .relu || d.kind == .abs) = true := by rcases hk with h | h <;> rw [h] <;> rfl
  simp only [hk', Bool.not_true, Bool.false_or] at h1
  have h2 := List.all_eq_true.1 h1 a ha
  rw [hm'] at h2
  have h3 := List.all_eq_true.1 h2 z hz
  rw [show x = z from hxz]
  simpa using h3

/-- The parameters and the data: two units, one unit, two rows. -/
def testOps {T : Type} (f : Int → T) : List (Op T) :=
  [.new ([1, -1, 2, 1].map f) [2, 2], .new ([1, 2].map f) [1, 2], .new ([3, -1].map f) [2, 1], .new ([1].map f) [1, 1],
    .new ([1, 2, 3, 4].map f) [2, 2], .new ([5, -9].map f) [2, 1]]

theorem testOps_rel : List.Forall₂ (OpRel NoTanh IsInt) (testOps id) (testOps (fun z : Int => (z : ℝ))) := by
  unfold testOps
  have key : ∀ l : List Int, List.Forall₂ IsInt (l.map id) (l.map fun z : Int => (z : ℝ)) := by
    intro l
    induction l with
    | nil => exact .nil
    | cons a l ih => exact .cons rfl ih
  exact .cons (.new _ (key _)) (.cons (.new _ (key _)) (.cons (.new _ (key _)) (.cons (.new _ (key _)) (.cons (.new _ (key _)) (.cons (.new _ (key _)) .nil)))))

/-- The layers: `relu`, then none. -/
def testLayers : List (Nat × Nat × Act) := [(0, 1, .relu), (2, 3, .identity)]

theorem testNet_rel : NetRel NoTanh IsInt (netOf Act.run testLayers) (netOf Act.run testLayers) :=
  .cons ⟨rfl, rfl, fun _ _ t hh => reluT_rel int_arith int_functions hh (by simp [NoTanh]) t⟩ (.cons ⟨rfl, rfl, fun _ _ _ hh => ⟨hh, rfl⟩⟩ .nil)

theorem of_match {α : Type} {x : R α} {p : α → Bool} (h : (match x with | .ok a => p a | .error _ => false) = true) : ∃ a, x = .ok a ∧ p a = true := by
  cases x with
  | error e => cases h
  | ok a => exact ⟨a, rfl, h⟩

/-- Two steps of training with integers. -/
def testTrain : R (Heap Int × Mlp Int) := runOps [] (testOps id) >>= fun h => train (netOf Act.run testLayers) h 4 5 (1 : Int) 2

theorem test_ok : ∃ p, testTrain = .ok p ∧ noKinksInt p.1 = true :=
  of_match (p := fun p : Heap Int × Mlp Int => noKinksInt p.1) (by decide +kernel)

theorem test_rel : SameOutcome (fun p q => HeapRel NoTanh IsInt p.1 q.1 ∧ NetRel NoTanh IsInt p.2 q.2) testTrain
    (runOps [] (testOps fun z : Int => (z : ℝ)) >>= fun h => train (netOf Act.run testLayers) h 4 5 (1 : ℝ) 2) :=
  SameOutcome.bind (runOps_rel int_arith int_functions (h := ([] : Heap Int)) (h' := ([] : Heap ℝ)) .nil testOps_rel)
    fun _ _ hh => train_rel int_arith int_functions (by simp [NoTanh]) hh testNet_rel 4 5 (by simp [IsInt]) 2

theorem small_ok : ∃ p, runOps [] [.new [(3 : Int)] [1], .relu 0, .sum 1, .backward 3] = .ok p ∧ noKinksInt p = true :=
  of_match (p := fun p => noKinksInt p) (by decide +kernel)

theorem small_rel : SameOutcome (HeapRel NoTanh IsInt) (runOps [] [.new [(3 : Int)] [1], .relu 0, .sum 1, .backward 3])
    (runOps [] [.new [(3 : ℝ)] [1], .relu 0, .sum 1, .backward 3]) :=
  runOps_rel int_arith int_functions (h := ([] : Heap Int)) (h' := ([] : Heap ℝ)) .nil (.cons (.new _ (.cons (by simp [IsInt]) .nil))
    (.cons (.relu 0 (by simp [NoTanh])) (.cons (.sum 1 (by simp [NoTanh])) (.cons (.backward 3 (by simp [NoTanh])) .nil))))

end Int

theorem test_train : ∃ r a, (do let h ← runOps [] (testOps fun z : Int => (z : ℝ)); train (netOf Act.run testLayers) h 4 5 (1 : ℝ) 2) = .ok (r, a) ∧
    NoKinks r := by
  obtain ⟨p, hp, hk⟩ := test_ok
  have h1 := test_rel
  rw [hp] at h1
  revert h1
  cases e : (runOps [] (testOps fun z : Int => (z : ℝ)) >>= fun h => train (netOf Act.run testLayers) h 4 5 (1 : ℝ) 2) with
  | error e => exact fun h => h.elim
  | ok q => exact fun h => ⟨q.1, q.2, rfl, noKinks_of_int h.1 hk⟩

theorem test_small : ∃ r, runOps [] [.new [(3 : ℝ)] [1], .relu 0, .sum 1, .backward 3] = .ok r ∧ NoKinks r := by
  obtain ⟨p, hp, hk⟩ := small_ok
  have h1 := small_rel
  rw [hp] at h1
  revert h1
  cases e : runOps [] [.new [(3 : ℝ)] [1], .relu 0, .sum 1, .backward 3] with
  | error e => exact fun h => h.elim
  | ok q => exact fun h => ⟨q, rfl, noKinks_of_int h hk⟩

end RL
