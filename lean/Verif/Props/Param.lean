import Verif.Lemmas.ParamInts
import Verif.Lemmas.TestInt
import Verif.Props.Gradient

/-!
# Failures do not depend on elements (C72); integer elements (C73, C74)
-/

namespace RL

open Spec

section independent

variable {T S : Type} [Zero T] [One T] [Add T] [Mul T] [Neg T] [Sub T] [LT T] [DecidableLT T] [LE T] [DecidableLE T] [RealFn T]
  [Zero S] [One S] [Add S] [Mul S] [Neg S] [Sub S] [LT S] [DecidableLT S] [LE S] [DecidableLE S] [RealFn S]

/-- C72 in general: if the arithmetic and the functions that are used keep a relation between elements of two types, then the same
program on related elements fails in the same way or gives the same graph with related elements. -/
theorem C72_related (K : JvpKind → Prop) (rel : T → S → Prop) (H : Arith K rel) (F : Functions K rel) (h : Heap T) (h' : Heap S)
    (hh : HeapRel K rel h h') (ops : List (Op T)) (ops' : List (Op S)) (ho : List.Forall₂ (OpRel K rel) ops ops') :
    SameOutcome (HeapRel K rel) (runOps h ops) (runOps h' ops') :=
  runOps_rel H F hh ho

/-- C72: whatever the elements are, even of different types, the same program on tensors of the same shapes fails in the same way or
gives tensors of the same shapes with the same history and the same gradient tensors. -/
theorem C72_outcome (h : Heap T) (h' : Heap S) (hh : HeapRel (fun _ => True) (fun _ _ => True) h h') (ops : List (Op T)) (ops' : List (Op S))
    (ho : List.Forall₂ (OpRel (fun _ => True) (fun _ _ => True)) ops ops') :
    SameOutcome (HeapRel (fun _ => True) (fun _ _ => True)) (runOps h ops) (runOps h' ops') :=
  runOps_rel ⟨trivial, trivial, fun _ _ => trivial, fun _ _ => trivial, fun _ _ _ _ => trivial⟩
    ⟨fun _ _ _ _ => ⟨trivial, trivial⟩, fun _ _ _ _ => ⟨trivial, trivial⟩, fun _ _ _ _ => ⟨trivial, trivial⟩⟩ hh ho

/-- C72 for the training loop: whether it runs depends on the shapes of network and data, not on the data, the initial parameters or
the step size. -/
theorem C72_train (h : Heap T) (h' : Heap S) (hh : HeapRel (fun _ => True) (fun _ _ => True) h h') (a : Mlp T) (b : Mlp S)
    (hab : NetRel (fun _ => True) (fun _ _ => True) a b) (input expected : Nat) (lr : T) (lr' : S) (n : Nat) :
    SameOutcome (fun p q => HeapRel (fun _ => True) (fun _ _ => True) p.1 q.1 ∧ NetRel (fun _ => True) (fun _ _ => True) p.2 q.2)
      (train a h input expected lr n) (train b h' input expected lr' n) :=
  train_rel ⟨trivial, trivial, fun _ _ => trivial, fun _ _ => trivial, fun _ _ _ _ => trivial⟩
    ⟨fun _ _ _ _ => ⟨trivial, trivial⟩, fun _ _ _ _ => ⟨trivial, trivial⟩, fun _ _ _ _ => ⟨trivial, trivial⟩⟩ (fun _ _ => trivial) hh hab _ _ trivial n

/-- C72: the activations of the crate meet the condition of `C72_train`. -/
theorem C72_activations : ActRel (fun _ => True) (fun (_ : T) (_ : S) => True) Activation.identity Activation.identity ∧
    ActRel (fun _ => True) (fun (_ : T) (_ : S) => True) reluT reluT ∧ ActRel (fun _ => True) (fun (_ : T) (_ : S) => True) tanhT tanhT := by
  have H : Arith (fun _ => True) (fun (_ : T) (_ : S) => True) := ⟨trivial, trivial, fun _ _ => trivial, fun _ _ => trivial, fun _ _ _ _ => trivial⟩
  have F : Functions (fun _ => True) (fun (_ : T) (_ : S) => True) :=
    ⟨fun _ _ _ _ => ⟨trivial, trivial⟩, fun _ _ _ _ => ⟨trivial, trivial⟩, fun _ _ _ _ => ⟨trivial, trivial⟩⟩
  exact ⟨fun h h' t hh => ⟨hh, rfl⟩, fun h h' t hh => reluT_rel H F hh trivial t, fun h h' t hh => tanhT_rel H F hh trivial t⟩

end independent

section ints

/-- C73, full statement: without overflow checks integer tensors compute exact results modulo `2 ^ w`: the same program on integers
fails in the same way, or gives the same graph with elements that differ by multiples of `2 ^ w`. It is false: see `C73_false`. -/
def C73_statement (w : Nat) : Prop := ∀ (ops : List (Op (Wrap w))) (ops' : List (Op Int)), List.Forall₂ (OpRel IntKind (Residue w)) ops ops' →
  letI := Test.intFn
  SameOutcome (HeapRel IntKind (Residue w)) (runOps [] ops) (runOps [] ops')

/-- C73 is false: for `i8`, `relu` of `100 + 100` is 0. -/
theorem C73_false : ¬ C73_statement 8 := by
  intro h
  letI := Test.intFn
  have h1 := h [.scalar (Wrap.ofInt 8 100), .add 0 0, .relu 1] [.scalar 100, .add 0 0, .relu 1]
    (.cons (.scalar rfl) (.cons (.add _ _ (by simp [IntKind])) (.cons (.relu _ (by simp [IntKind])) .nil)))
  have e1 : runOps [] [.scalar (Wrap.ofInt 8 100), .add 0 0, .relu 1] = .ok [leafNode ⟨[Wrap.ofInt 8 100], []⟩,
      ⟨⟨[Wrap.ofInt 8 200], []⟩, none, some ⟨[0, 0], .add⟩⟩, ⟨⟨[Wrap.ofInt 8 0], []⟩, none, some ⟨[1], .relu⟩⟩] := by decide +kernel
  have e2 : runOps [] [.scalar (100 : Int), .add 0 0, .relu 1] = .ok [leafNode ⟨[100], []⟩,
      ⟨⟨[200], []⟩, none, some ⟨[0, 0], .add⟩⟩, ⟨⟨[200], []⟩, none, some ⟨[1], .relu⟩⟩] := by decide +kernel
  rw [e1, e2] at h1
  cases h1 with
  | cons _ h1 => cases h1 with
    | cons _ h1 => cases h1 with
      | cons h1 _ => cases h1.1.1 with
        | cons h2 _ => exact absurd h2 (by unfold Residue; decide)

/-- C73 for programs without `relu`, with their gradients. Missing: `relu`, for which it is false. -/
theorem C73_partial (w : Nat) (ops : List (Op (Wrap w))) (ops' : List (Op Int)) (ho : List.Forall₂ (OpRel RingKind (Residue w)) ops ops') :
    letI := Test.intFn
    SameOutcome (HeapRel RingKind (Residue w)) (runOps [] ops) (runOps [] ops') :=
  letI := Test.intFn
  runOps_rel (residue_arith w _) (ring_functions _) .nil ho

/-- C73: so elements whose exact value is in the range of the type are exact, whatever overflowed on the way: signed types. -/
theorem C73_signed (w : Nat) (x : Wrap w) (z : Int) (h : Residue w x z) (hw : 0 < w) (h1 : -2 ^ (w - 1) ≤ z) (h2 : z < 2 ^ (w - 1)) : x.toInt = z := by
  rw [h]
  exact BitVec.toInt_ofInt_eq_self hw h1 h2

/-- C73: unsigned types. -/
theorem C73_unsigned (w : Nat) (x : Wrap w) (z : Int) (h : Residue w x z) (h1 : 0 ≤ z) (h2 : z < 2 ^ w) : (x.toNat : Int) = z := by
  rw [h, Wrap.toNat, Wrap.ofInt, BitVec.toNat_ofInt]
  have h3 : (2 ^ w : Nat) = (2 ^ w : Int) := by norm_cast
  rw [h3, Int.emod_eq_of_lt h1 h2, Int.toNat_of_nonneg h1]

/-- C73: what the debug profile computes: sum, product, difference and negation, if they are in range. -/
theorem C73_checks (lo hi x y z : Int) :
    ((⟨some x⟩ + ⟨some y⟩ : Checked lo hi).val = some z ↔ z = x + y ∧ lo ≤ z ∧ z ≤ hi) ∧
    ((⟨some x⟩ * ⟨some y⟩ : Checked lo hi).val = some z ↔ z = x * y ∧ lo ≤ z ∧ z ≤ hi) ∧
    ((⟨some x⟩ - ⟨some y⟩ : Checked lo hi).val = some z ↔ z = x - y ∧ lo ≤ z ∧ z ≤ hi) ∧
    ((-⟨some x⟩ : Checked lo hi).val = some z ↔ z = -x ∧ lo ≤ z ∧ z ≤ hi) := by
  have h : ∀ w : Int, (Checked.check w : Checked lo hi).val = some z ↔ z = w ∧ lo ≤ z ∧ z ≤ hi := by
    intro w
    unfold Checked.check
    dsimp only
    split
    · rename_i hw
      rw [Option.some.injEq]
      exact ⟨fun e => ⟨e.symm, e ▸ hw⟩, fun e => e.1.symm⟩
    · rename_i hw
      exact ⟨fun e => absurd e (by simp), fun e => absurd (e.1 ▸ e.2) hw⟩
  exact ⟨h _, h _, h _, h _⟩

/-- C73: a panic is not forgotten. -/
theorem C73_panics (lo hi : Int) (x : Checked lo hi) : (⟨none⟩ + x : Checked lo hi) = ⟨none⟩ ∧ x + ⟨none⟩ = ⟨none⟩ ∧ (⟨none⟩ * x : Checked lo hi) = ⟨none⟩ ∧
    x * ⟨none⟩ = ⟨none⟩ ∧ (⟨none⟩ - x : Checked lo hi) = ⟨none⟩ ∧ x - ⟨none⟩ = ⟨none⟩ ∧ (-⟨none⟩ : Checked lo hi) = ⟨none⟩ := by
  obtain ⟨x⟩ := x
  cases x <;> exact ⟨rfl, rfl, rfl, rfl, rfl, rfl, rfl⟩

/-- C73, test: `127 + 1`, `64 - (-64)` and `-(-128)` panic in `i8`, `127 + 0` does not. -/
example : (⟨some 127⟩ + ⟨some 1⟩ : Checked (-128) 127) = ⟨none⟩ ∧ (⟨some 64⟩ - ⟨some (-64)⟩ : Checked (-128) 127) = ⟨none⟩ ∧
    (-⟨some (-128)⟩ : Checked (-128) 127) = ⟨none⟩ ∧ (⟨some 127⟩ + ⟨some 0⟩ : Checked (-128) 127) = ⟨some 127⟩ := by decide

/-- C73: with overflow checks every element that is computed without a panic is exact, for programs without `relu`. -/
theorem C73_checked (lo hi : Int) (ops : List (Op (Checked lo hi))) (ops' : List (Op Int))
    (ho : List.Forall₂ (OpRel RingKind Exact) ops ops') :
    letI := Test.intFn
    SameOutcome (HeapRel RingKind Exact) (runOps [] ops) (runOps [] ops') :=
  letI := Test.intFn
  runOps_rel (exact_arith lo hi _) (ring_functions _) .nil ho

/-- C73: every element that is computed with overflow checks without a panic is the same without overflow checks: signed types, programs
without `relu`. -/
theorem C73_profiles (w : Nat) (hw : 1 < w) (ops : List (Op (Checked (-2 ^ (w - 1)) (2 ^ (w - 1) - 1)))) (ops' : List (Op (Wrap w)))
    (ho : List.Forall₂ (OpRel RingKind (Agree w)) ops ops') : SameOutcome (HeapRel RingKind (Agree w)) (runOps [] ops) (runOps [] ops') :=
  runOps_rel (agree_arith w hw _) (ring_functions _) .nil ho

/-- C74: gradients of integer tensors, without overflow checks: run the program on real numbers. The computed gradient is the residue of
the derivative, which is an integer. -/
theorem C74_gradient (w : Nat) (ops : List (Op (Wrap w))) (ops' : List (Op ℝ)) (ho : List.Forall₂ (OpRel RingKind (Whole w)) ops ops')
    (h : Heap (Wrap w)) (e : runOps [] ops = .ok h) (r : Heap ℝ) (e' : runOps [] ops' = .ok r) (h' : Heap (Wrap w)) (l x : Nat)
    (eb : backward h l = .ok h') (hl : DiffLoss r l) (hsm : SmallFor r l x) (htop : SumsOnTop r l x) (hx : Ancestor r x l) (v : Raw ℝ)
    (hv : dataOf r x = some v) (hg : gradOf r x = none) (X : List Nat → ℝ) (hX : ∀ idx, InRange v.shape idx → Raw.elem? v idx = some (X idx))
    (V : (List Nat → ℝ) → Nat → List Nat → ℝ) (hV : ∀ Y, Reeval r l x Y (V Y)) :
    ∃ g, gradOf h' x = some g ∧ g.shape = v.shape ∧ ∀ c, InRange v.shape c → ∀ il, InRange (shapeOf r l) il →
      ∃ D : Int, HasDerivAt (fun y => V (Function.update X c y) l il) D (X c) ∧ Raw.elem? g c = some (Wrap.ofInt w D) := by
  have h1 := runOps_rel (whole_arith w RingKind) (ring_functions (Whole w)) (h := []) (h' := []) .nil ho
  rw [e, e'] at h1
  have h2 := backward_rel (whole_arith w RingKind) (ring_functions (Whole w)) (by simp [RingKind]) h1 l
  rw [eb] at h2
  cases er : backward r l with
  | error f => rw [er] at h2; exact h2.elim
  | ok r' =>
    rw [er] at h2
    obtain ⟨g', g1, g2, _, g3⟩ := C29_partial r r' l x v ⟨ops', e'⟩ hl hsm htop er hx hv (fun p hp => by rw [hg] at hp; cases hp) X hX V hV
    obtain ⟨g, k1, k2⟩ := gradOf_rel h2 g1
    refine ⟨g, k1, k2.2.trans g2, fun c hc il hil => ?_⟩
    obtain ⟨D, d1, d2⟩ := g3 c hc il hil
    rw [hg] at d2
    obtain ⟨y, y1, z, y2, y3⟩ := elem_rel k2 d2
    have : D = z := by rw [← y3]; simp [coord]
    exact ⟨z, this ▸ d1, by rw [y1, y2]⟩

/-- C74, test: a program on real numbers. -/
def C74_example : Heap ℝ :=
  [leafNode ⟨[100, 2], [1, 2]⟩, leafNode ⟨[100, 100, 5, 6], [2, 2]⟩, ⟨⟨[0 + 100 * 100 + 2 * 5, 0 + 100 * 100 + 2 * 6], [1, 2]⟩, none, some ⟨[0, 1], .bmm⟩⟩,
   leafNode ⟨[1, 1], [1, 2]⟩, ⟨⟨[0 + (0 + 100 * 100 + 2 * 5) + (0 + 100 * 100 + 2 * 6)], []⟩, some 3, some ⟨[2], .sum⟩⟩]

theorem C74_example_run : runOps [] [.new [100, 2] [1, 2], .new [100, 100, 5, 6] [2, 2], .bmm 0 1, .sum 2] = .ok C74_example := rfl

/-- C74, test: the hypotheses are met. -/
example : List.Forall₂ (OpRel RingKind (Whole 8))
      [.new [Wrap.ofInt 8 100, Wrap.ofInt 8 2] [1, 2], .new [Wrap.ofInt 8 100, Wrap.ofInt 8 100, Wrap.ofInt 8 5, Wrap.ofInt 8 6] [2, 2], .bmm 0 1, .sum 2]
      [.new [100, 2] [1, 2], .new [100, 100, 5, 6] [2, 2], .bmm 0 1, .sum 2] ∧
    DiffLoss C74_example 4 ∧ SmallFor C74_example 4 0 ∧ SumsOnTop C74_example 4 0 ∧ Ancestor C74_example 0 4 ∧ gradOf C74_example 0 = none := by
  have hr : Reachable C74_example := ⟨_, C74_example_run⟩
  have hc : ∀ i, i < 5 ∨ C74_example[i]? = none := fun i => by
    rcases Nat.lt_or_ge i 5 with h | h
    · exact Or.inl h
    · exact Or.inr (List.getElem?_eq_none h)
  have w : ∀ z : Int, ∀ y : ℝ, y = z → Whole 8 (Wrap.ofInt 8 z) y := fun z y h => ⟨z, rfl, h⟩
  refine ⟨.cons (.new _ (.cons (w _ _ (by norm_num)) (.cons (w _ _ (by norm_num)) .nil)))
      (.cons (.new _ (.cons (w _ _ (by norm_num)) (.cons (w _ _ (by norm_num)) (.cons (w _ _ (by norm_num)) (.cons (w _ _ (by norm_num)) .nil)))))
      (.cons (.bmm _ _ (by simp [RingKind])) (.cons (.sum _ (by simp [RingKind])) .nil))),
    ⟨⟨⟨_, rfl, by simp⟩, rfl, ?_, ?_, ?_, fun _ _ hd => by cases hd⟩, ?_⟩, ?_, ?_, ?_, rfl⟩
  · intro i v _ hv
    rcases hc i with hi | hi
    · interval_cases i <;> cases hv <;> simp [WF, Pos, leafNode]
    · simp [dataOf, hi] at hv
  · intro i d ha hd
    have hi := ancestor_lt hr.good ha
    interval_cases i <;> cases hd <;> simp
  · intro i a b _ hh
    rcases hc i with hi | hi
    · interval_cases i <;> cases hh
      exact ⟨1, 2, 2, rfl, rfl⟩
    · simp [historyOf, hi] at hh
  · intro i a k v _ hh hk hv
    rcases hc i with hi | hi
    · interval_cases i <;> cases hh <;> simp at hk
    · simp [historyOf, hi] at hh
  · intro i a b _ hh
    rcases hc i with hi | hi
    · interval_cases i <;> cases hh
      simp [shapeOf, dataOf, C74_example, leafNode]
    · simp [historyOf, hi] at hh
  · refine C59_last _ _ _ hr fun i d ha hd => ?_
    have hi := ancestor_lt hr.good ha
    interval_cases i <;> cases hd <;> simp
  · have h1 : IsInput C74_example 0 2 := ⟨_, _, rfl, rfl, by simp⟩
    have h2 : IsInput C74_example 2 4 := ⟨_, _, rfl, rfl, by simp⟩
    exact .head h1 (.single h2)

/-- C74, test: the first derivative is 200, which is -56 for `i8`; the loss overflowed. -/
example : (runOps [] [.new [Wrap.ofInt 8 100, Wrap.ofInt 8 2] [1, 2], .new [Wrap.ofInt 8 100, Wrap.ofInt 8 100, Wrap.ofInt 8 5, Wrap.ofInt 8 6] [2, 2],
    .bmm 0 1, .sum 2, .backward 4]).toOption.bind (fun h => (gradOf h 0).map (·.array.map Wrap.toInt)) = some [-56, 11] := by decide +kernel

/-- C73, test: the hypotheses are met: `i8`, `100 + 100 - 150` is exact although `100 + 100` overflows; with overflow checks it panics. -/
example : List.Forall₂ (OpRel RingKind (Residue 8)) [.scalar (Wrap.ofInt 8 100), .add 0 0, .scalar (Wrap.ofInt 8 150), .sub 1 2]
      [.scalar 100, .add 0 0, .scalar 150, .sub 1 2] ∧
    (runOps [] [.scalar (Wrap.ofInt 8 100), .add 0 0, .scalar (Wrap.ofInt 8 150), .sub 1 2]).toOption.bind (fun h => (dataOf h 4).map (·.array.map Wrap.toInt)) =
      some [50] ∧
    (runOps [] [.scalar (⟨some 100⟩ : Checked (-128) 127), .add 0 0, .scalar ⟨some 50⟩, .sub 1 2]).toOption.bind
      (fun h => (dataOf h 4).map (·.array.map Checked.val)) = some [none] := by
  refine ⟨.cons (.scalar rfl) (.cons (.add _ _ (by simp [RingKind])) (.cons (.scalar rfl) (.cons (.sub _ _ (by simp [RingKind]) (by simp [RingKind])) .nil))),
    by decide +kernel, by decide +kernel⟩

/-- C73, test: the hypotheses of `C73_checked` and `C73_profiles` are met: one element panics, the other one is the same. -/
example : List.Forall₂ (OpRel RingKind Exact) ([.new [⟨some 100⟩, ⟨some 50⟩] [2], .add 0 0] : List (Op (Checked (-128) 127))) [.new [100, 50] [2], .add 0 0] ∧
    List.Forall₂ (OpRel RingKind (Agree 8)) [.new [⟨some 100⟩, ⟨some 50⟩] [2], .add 0 0] [.new [Wrap.ofInt 8 100, Wrap.ofInt 8 50] [2], .add 0 0] ∧
    (runOps [] [.new [⟨some 100⟩, (⟨some 50⟩ : Checked (-128) 127)] [2], .add 0 0]).toOption.bind (fun h => (dataOf h 1).map (·.array.map Checked.val)) =
      some [none, some 100] ∧
    (runOps [] [.new [Wrap.ofInt 8 100, Wrap.ofInt 8 50] [2], .add 0 0]).toOption.bind (fun h => (dataOf h 1).map (·.array.map Wrap.toInt)) =
      some [-56, 100] := by
  refine ⟨.cons (.new _ (.cons (Or.inr rfl) (.cons (Or.inr rfl) .nil))) (.cons (.add _ _ (by simp [RingKind])) .nil),
    .cons (.new _ (.cons ?_ (.cons ?_ .nil))) (.cons (.add _ _ (by simp [RingKind])) .nil), by decide +kernel, by decide +kernel⟩ <;>
  · intro z hz
    cases hz
    decide

/-- C72, test: two programs with the same shapes and different elements, on integers and on bytes. -/
example : List.Forall₂ (OpRel (fun _ => True) (fun _ _ => True)) ([.new [1, 2] [2], .relu 0, .sum 1, .backward 3] : List (Op Int))
    ([.new [Wrap.ofInt 8 3, Wrap.ofInt 8 4] [2], .relu 0, .sum 1, .backward 3] : List (Op (Wrap 8))) :=
  .cons (.new _ (.cons trivial (.cons trivial .nil))) (.cons (.relu _ trivial) (.cons (.sum _ trivial) (.cons (.backward _ trivial) .nil)))

end ints

end RL
