import Verif.Lemmas.InnerSum
import Verif.Props.DotRoot
import Verif.Lemmas.TestInt
import Mathlib.Tactic.IntervalCases
import Mathlib.Tactic.NormNum

/-!
# Gradients are derivatives (C29, C59)
-/

namespace RL

open Spec

/-- C29, full statement: the gradient of every tensor that a loss whose last operation is `sum` depends on grows by the derivative of the loss. -/
def C29_statement : Prop :=
  ∀ (h h' : Heap ℝ) (l a x : Nat) (v : Raw ℝ), Reachable h → DiffLoss h l → historyOf h l = some (some ⟨[a], .sum⟩) → backward h l = .ok h' →
    Ancestor h x l → dataOf h x = some v → (∀ p, gradOf h x = some p → p.shape = v.shape ∧ WF p) → ∀ X : List Nat → ℝ,
    (∀ idx, InRange v.shape idx → Raw.elem? v idx = some (X idx)) → ∀ V : (List Nat → ℝ) → Nat → List Nat → ℝ, (∀ Y, Reeval h l x Y (V Y)) →
    ∃ g, gradOf h' x = some g ∧ g.shape = v.shape ∧ WF g ∧ ∀ c, InRange v.shape c → ∀ il, InRange (shapeOf h l) il →
      ∃ D, HasDerivAt (fun y => V (Function.update X c y) l il) D (X c) ∧ Raw.elem? g c = some (coord (gradOf h x) c + D)

/-- C29 if all matrices that depend on `x` and go into `bmm` have at most 32 elements, and results of `sum` that depend on `x` are only
added as one-element tensors (there may be several `sum`s, for example `sum a + sum b`, but not `sum a - sum b`). `v` are the elements of `x`, `V Y` are the elements that all tensors
would have had if `x` had had the elements `Y` (they exist by `C29_exists`, are unique by `C29_unique` and are what the program computes
by `C29_replay`). Besides a final `sum`, a one-element loss may end with `add`, `neg`, `relu`, `tanh` or `dot` (of leaves and of rows). Missing: larger matrices, for
which it is false (`C29_false`), and other `sum`s inside, for which it is false (`C59_false`); what is computed for them is said by
`C29_actual`. -/
theorem C29_partial (h h' : Heap ℝ) (l x : Nat) (v : Raw ℝ) (hr : Reachable h) (hl : DiffLoss h l) (hsm : SmallFor h l x)
    (htop : SumsOnTop h l x) (e : backward h l = .ok h') (hx : Ancestor h x l) (hv : dataOf h x = some v)
    (hfit : ∀ p, gradOf h x = some p → p.shape = v.shape ∧ WF p) (X : List Nat → ℝ)
    (hX : ∀ idx, InRange v.shape idx → Raw.elem? v idx = some (X idx)) (V : (List Nat → ℝ) → Nat → List Nat → ℝ)
    (hV : ∀ Y, Reeval h l x Y (V Y)) :
    ∃ g, gradOf h' x = some g ∧ g.shape = v.shape ∧ WF g ∧ ∀ c, InRange v.shape c → ∀ il, InRange (shapeOf h l) il →
      ∃ D, HasDerivAt (fun y => V (Function.update X c y) l il) D (X c) ∧ Raw.elem? g c = some (coord (gradOf h x) c + D) :=
  backward_derivative hr.good hl hsm htop e hx hv hfit (fun idx hi => (cell_elem (hX idx hi)).symm) hV

/-- C29, what is computed in all cases: for matrices of all sizes, for all `sum`s inside, also where `relu` and `abs` have no derivative,
`backward` adds two parts: the derivative along the recorded operations with shuffled factors of matrix products and constant results of
`sum`; and for every way from the loss to a `sum` the derivative of the result of this `sum`, whatever is done with it on the way. (These
parts exist by `C29_sweeps_exist` and are unique by `C29_sweeps_unique`.) -/
theorem C29_actual (h h' : Heap ℝ) (l x : Nat) (v : Raw ℝ) (hr : Reachable h) (hl : RealLoss h l) (e : backward h l = .ok h')
    (hx : Ancestor h x l) (hv : dataOf h x = some v) (hfit : ∀ p, gradOf h x = some p → p.shape = v.shape ∧ WF p) :
    ∃ g, gradOf h' x = some g ∧ g.shape = v.shape ∧ WF g ∧ ∀ c, InRange v.shape c → ∀ il, InRange (shapeOf h l) il →
      ∀ τ ε, Sweeps h l x c τ ε → Raw.elem? g c = some (coord (gradOf h x) c + (τ l il + ε l)) :=
  backward_sweeps hr.good hl e hx hv hfit

/-- C29: the two parts exist. -/
theorem C29_sweeps_exist (h : Heap ℝ) (l x : Nat) (c : List Nat) (hr : Reachable h) : ∃ τ ε, Sweeps h l x c τ ε :=
  sweeps_exists hr.good l x c

/-- C29: the two parts are unique. -/
theorem C29_sweeps_unique (h : Heap ℝ) (l x : Nat) (c : List Nat) (hr : Reachable h) (hl : RealLoss h l) (τ τ' : Nat → List Nat → ℝ)
    (ε ε' : Nat → ℝ) (hτ : Sweeps h l x c τ ε) (hτ' : Sweeps h l x c τ' ε') :
    ∀ i, Feeds h i l → (∀ idx, InRange (shapeOf h i) idx → τ i idx = τ' i idx) ∧ ε i = ε' i :=
  sweeps_unique hr.good hl hτ hτ'

/-- C59 if results of `sum` that depend on `x` are only added as one-element tensors: for matrices of all sizes, also where `relu` and
`abs` have no derivative, `backward` adds the derivative along the recorded operations with shuffled factors of matrix products. (These
derivatives exist by `C29_tangents_exist` and are unique by `C29_tangents_unique`.) Missing: other `sum`s, for which it is false
(`C59_false`; what is computed is said by `C29_actual`). -/
theorem C59_partial (h h' : Heap ℝ) (l x : Nat) (v : Raw ℝ) (hr : Reachable h) (hl : RealLoss h l) (htop : SumsOnTop h l x)
    (e : backward h l = .ok h') (hx : Ancestor h x l) (hv : dataOf h x = some v) (hfit : ∀ p, gradOf h x = some p → p.shape = v.shape ∧ WF p) :
    ∃ g, gradOf h' x = some g ∧ g.shape = v.shape ∧ WF g ∧ ∀ c, InRange v.shape c → ∀ il, InRange (shapeOf h l) il →
      ∀ τ, Tangents h l x c τ → Raw.elem? g c = some (coord (gradOf h x) c + τ l il) :=
  backward_tangent hr.good hl htop e hx hv hfit

/-- C59: the condition holds if there is no `sum` before the last operation. -/
theorem C59_last (h : Heap ℝ) (l x : Nat) (hr : Reachable h) (hno : ∀ i d, Ancestor h i l → historyOf h i = some (some d) → d.kind ≠ .sum) :
    SumsOnTop h l x :=
  sumsOnTop_of_noInner hr.good hno

/-- C29: the derivatives with shuffled factors exist. -/
theorem C29_tangents_exist (h : Heap ℝ) (l x : Nat) (c : List Nat) (hr : Reachable h) : ∃ τ, Tangents h l x c τ :=
  tangents_exists hr.good l x c

/-- C29: the derivatives with shuffled factors are unique. -/
theorem C29_tangents_unique (h : Heap ℝ) (l x : Nat) (c : List Nat) (hr : Reachable h) (hl : RealLoss h l) (τ τ' : Nat → List Nat → ℝ)
    (hτ : Tangents h l x c τ) (hτ' : Tangents h l x c τ') : ∀ i, Feeds h i l → ∀ idx, InRange (shapeOf h i) idx → τ i idx = τ' i idx :=
  tangents_unique hr.good hl hτ hτ'

/-- C29: the shuffle moves nothing in arrays of up to 32 elements, and it is a permutation in all. -/
theorem C29_shuffle (len : Nat) : (∀ i < len, shuffle len i < len) ∧ (∀ i < len, ∀ j < len, shuffle len i = shuffle len j → i = j) ∧
    (len ≤ 32 → ∀ i < len, shuffle len i = i) :=
  ⟨fun _ hi => segPos_lt hi, fun _ hi _ hj e => segPos_inj hi hj e, fun hl _ hi => segPos_small hl hi⟩

/-- C29, test: the shuffle of 40 positions: the last 8 come first. -/
example : (List.range 40).map (shuffle 40) = List.range' 8 32 ++ List.range 8 := by decide

/-- C29: the re-evaluation exists for all elements of `x`. -/
theorem C29_exists (h : Heap ℝ) (l x : Nat) (hr : Reachable h) (hl : RealLoss h l) (Y : List Nat → ℝ) : ∃ V, Reeval h l x Y V :=
  reeval_exists hr.good hl Y

/-- C29: the re-evaluation is unique. -/
theorem C29_unique (h : Heap ℝ) (l x : Nat) (hr : Reachable h) (hl : RealLoss h l) (Y : List Nat → ℝ) (V V' : Nat → List Nat → ℝ)
    (hV : Reeval h l x Y V) (hV' : Reeval h l x Y V') : ∀ i, Feeds h i l → ∀ idx, InRange (shapeOf h i) idx → V i idx = V' i idx :=
  reeval_unique hr.good hl hV hV'

/-- C29: the re-evaluation is what the program computes: the elements in the heap of a second run of the same operations with other
elements in `x` are a re-evaluation. -/
theorem C29_replay (h h2 : Heap ℝ) (l x : Nat) (hr : Reachable h) (hr2 : Reachable h2) (hl : RealLoss h l) (hrep : Replay h h2 l x) :
    Reeval h l x (coord (dataOf h2 x)) (fun i => coord (dataOf h2 i)) :=
  replay_reeval hr.good hr2.good hl hrep

/-- C29, in terms of runs of the program: let `H y` be the heap after the same operations with element `c` of `x` set to `y`. Then `backward`
adds to element `c` of the gradient of `x` the derivative of the loss in `H y` by `y`. -/
theorem C29_runs_partial (h h' : Heap ℝ) (l x : Nat) (v : Raw ℝ) (hr : Reachable h) (hl : DiffLoss h l) (hsm : SmallFor h l x)
    (htop : SumsOnTop h l x) (e : backward h l = .ok h') (hx : Ancestor h x l) (hv : dataOf h x = some v)
    (hfit : ∀ p, gradOf h x = some p → p.shape = v.shape ∧ WF p) (c il : List Nat) (hc : InRange v.shape c) (hil : InRange (shapeOf h l) il)
    (H : ℝ → Heap ℝ) (hH : ∀ y, Reachable (H y)) (hrep : ∀ y, Replay h (H y) l x)
    (helem : ∀ y idx, InRange v.shape idx → coord (dataOf (H y) x) idx = if idx = c then y else coord (some v) idx) :
    ∃ g D, gradOf h' x = some g ∧ HasDerivAt (fun y => coord (dataOf (H y) l) il) D (coord (some v) c) ∧
      Raw.elem? g c = some (coord (gradOf h x) c + D) := by
  choose V hV using C29_exists h l x hr hl.toRealLoss
  have wv := (hl.data x v (Or.inr hx) hv).1
  obtain ⟨g, h1, _, _, h2⟩ := C29_partial h h' l x v hr hl hsm htop e hx hv hfit (coord (some v))
    (fun idx hi => by rw [coord_some]; exact elem_cell wv hi) V hV
  obtain ⟨D, h3, h4⟩ := h2 c hc il hil
  refine ⟨g, D, h1, ?_, h4⟩
  have : (fun y => coord (dataOf (H y) l) il) = fun y => V (Function.update (coord (some v)) c y) l il := by
    funext y
    have hr2 := C29_replay h (H y) l x hr (hH y) hl.toRealLoss (hrep y)
    refine C29_unique h l x hr hl.toRealLoss (Function.update (coord (some v)) c y) _ _ ⟨?_, hr2.leaf, hr2.add, hr2.neg, hr2.relu, hr2.abs, hr2.tanh,
      hr2.bmm, hr2.sum, hr2.dot⟩ (hV _) l (Or.inl rfl) il hil
    intro idx hidx
    rw [shapeOf_data hv] at hidx
    rw [helem y idx hidx, Function.update_apply]
  rw [this]
  exact h3

/-- C29: `backward` succeeds for these losses, for matrices of all sizes and `sum`s inside, if the gradients left from before have the
shapes of their tensors or belong to scalars. -/
theorem C29_success (h : Heap ℝ) (l : Nat) (hr : Reachable h) (hl : RealLoss h l)
    (hfit : ∀ x v p, Ancestor h x l → dataOf h x = some v → gradOf h x = some p → WF p ∧ (p.shape = v.shape ∨ v.shape = [] ∧ Pos p.shape)) :
    ∃ h', backward h l = .ok h' := by
  obtain ⟨d, hd, hk⟩ := hl.root
  have hd' := hd
  simp only [historyOf, Option.map_eq_some_iff] at hd'
  obtain ⟨n, hn, hgf⟩ := hd'
  by_cases hdot : d.kind = .dot
  · obtain ⟨ins, kind⟩ := d
    simp only at hdot
    subst hdot
    obtain ⟨vs, hvs, hfw⟩ := (hr.good l n hn).explained _ hgf
    obtain ⟨a, b, rfl⟩ := List.length_eq_two.1 (show ins.length = 2 by rw [(Heap.vals_eq_ok.1 hvs).length_eq]; exact fwd_arity hfw)
    refine (C39_dot h hr l a b hd (fun i hi => ?_) fun x w hx hw => ?_).2 fun m e hm he => ⟨fun h0 => ?_, fun h0 i w hi hw => ?_⟩
    · refine (hl.rows a b hd i hi).imp_right fun ⟨k, h1⟩ => ?_
      cases hw : dataOf h i with
      | none => rw [shapeOf, hw] at h1; cases h1
      | some w => exact ⟨w, k, rfl, by rw [← shapeOf_data hw]; exact h1⟩
    · obtain ⟨h1, h2⟩ := hl.data x w (Or.inr hx) hw
      exact ⟨h1, h2, fun g hg => hfit x w g hx hw hg⟩
    · have := hl.inner m e hm he
      rw [h0] at this
      simp at this
    · obtain ⟨nm, hnm, hem⟩ := historyOf_eq.1 he
      obtain ⟨vs', hvs', hfw'⟩ := (hr.good m nm hnm).explained _ hem
      obtain ⟨inputs, kind⟩ := e
      simp only at h0
      subst h0
      obtain ⟨a', b', rfl⟩ := List.length_eq_two.1 (show inputs.length = 2 by rw [(Heap.vals_eq_ok.1 hvs').length_eq]; exact fwd_arity hfw')
      obtain ⟨m', k, n', s1, _⟩ := hl.mats m a' b' (Or.inr hm) he
      simp only [List.getElem?_cons_zero, Option.some.injEq] at hi
      subst hi
      rw [← shapeOf_data hw, s1]
      exact Or.inl rfl
  have hdat := hl.data l n.val (Or.inl rfl) (dataOf_node hn)
  have hone := hl.one
  rw [shapeOf_eq hn] at hone
  refine C39_partial h hr l n.val d (dataOf_node hn) (hdat.1.trans hone) hd ?_ ?_ ?_
  · constructor <;> intro h0 <;> rw [h0] at hk <;> simp at hk
  · intro m e hm he
    refine ⟨fun h0 => ?_, fun hb i w hi hw => ?_⟩
    · rcases hm with rfl | hm
      · rw [hd] at he
        cases he
        exact hdot h0
      · have := hl.inner m e hm he
        rw [h0] at this
        simp at this
    · obtain ⟨_, hnm, _, ⟨a, b, _, _, hab, _, _, _, ha, _⟩ | ⟨_, _, _, _, hk', _⟩⟩ := fwd_inputs hr.good he
      · obtain ⟨inputs, kind⟩ := e
        simp only at hab hb
        subst hab hb
        obtain ⟨m', k, n', s1, _⟩ := hl.mats m a b hm he
        simp only [List.getElem?_cons_zero, Option.some.injEq] at hi
        subst hi
        rw [← shapeOf_data hw, s1]
        rfl
      · rw [hb] at hk'
        simp [isUnary] at hk'
  · intro a w ha hw
    obtain ⟨h1, h2⟩ := hl.data a w (Or.inr ha) hw
    exact ⟨h1, h2, fun g hg => hfit a w g ha hw hg⟩

noncomputable section

/-- C29, test: the heap of `sum (relu (A bmm B) + C)`. -/
def C29_example (y : ℝ) : Heap ℝ :=
  [leafNode ⟨[y, 2], [1, 2]⟩, leafNode ⟨[3, 4, 5, 6], [2, 2]⟩, leafNode ⟨[7], [1]⟩,
   ⟨⟨[0 + y * 3 + 2 * 5, 0 + y * 4 + 2 * 6], [1, 2]⟩, none, some ⟨[0, 1], .bmm⟩⟩,
   ⟨⟨[reluFn (0 + y * 3 + 2 * 5), reluFn (0 + y * 4 + 2 * 6)], [1, 2]⟩, none, some ⟨[3], .relu⟩⟩,
   ⟨⟨[reluFn (0 + y * 3 + 2 * 5) + 7, reluFn (0 + y * 4 + 2 * 6) + 7], [1, 2]⟩, none, some ⟨[4, 2], .add⟩⟩,
   leafNode ⟨[1, 1], [1, 2]⟩,
   ⟨⟨[0 + (reluFn (0 + y * 3 + 2 * 5) + 7) + (reluFn (0 + y * 4 + 2 * 6) + 7)], []⟩, some 6, some ⟨[5], .sum⟩⟩]

/-- C29, test. -/
theorem C29_example_reachable (y : ℝ) : Reachable (C29_example y) :=
  ⟨[.new [y, 2] [1, 2], .new [3, 4, 5, 6] [2, 2], .new [7] [1], .bmm 0 1, .relu 3, .add 4 2, .sum 5], rfl⟩

theorem C29_example_cases (i : Nat) : i < 8 ∨ ∀ y, (C29_example y)[i]? = none := by
  rcases Nat.lt_or_ge i 8 with h | h
  · exact Or.inl h
  · exact Or.inr fun y => List.getElem?_eq_none h

/-- C29, test: the hypotheses of `C29_partial` are satisfied. -/
example : DiffLoss (C29_example 1) 7 ∧ SmallFor (C29_example 1) 7 0 ∧ SumsOnTop (C29_example 1) 7 0 ∧ Ancestor (C29_example 1) 0 7 := by
  refine ⟨⟨⟨⟨_, rfl, by simp⟩, rfl, ?_, ?_, ?_, fun _ _ hd => by cases hd⟩, ?_⟩, ?_, ?_, ?_⟩
  · intro i v _ hv
    rcases C29_example_cases i with hi | hi
    · interval_cases i <;> cases hv <;> simp [WF, Pos, leafNode]
    · simp [dataOf, hi] at hv
  · intro i d ha hd
    have hi := ancestor_lt (C29_example_reachable 1).good ha
    interval_cases i <;> cases hd <;> simp
  · intro i a b _ hh
    rcases C29_example_cases i with hi | hi
    · interval_cases i <;> cases hh
      exact ⟨1, 2, 2, rfl, rfl⟩
    · simp [historyOf, hi] at hh
  · intro i a k v _ hh hk hv
    rcases C29_example_cases i with hi | hi
    · interval_cases i <;> cases hh <;> cases hv <;> simp at hk ⊢ <;> norm_num
    · simp [historyOf, hi] at hh
  · intro i a b _ hh
    rcases C29_example_cases i with hi | hi
    · interval_cases i <;> cases hh
      simp [shapeOf, dataOf, C29_example, leafNode]
    · simp [historyOf, hi] at hh
  · refine C59_last _ _ _ (C29_example_reachable 1) fun i d ha hd => ?_
    have hi := ancestor_lt (C29_example_reachable 1).good ha
    interval_cases i <;> cases hd <;> simp
  · have h1 : IsInput (C29_example 1) 0 3 := ⟨_, _, rfl, rfl, by simp⟩
    have h2 : IsInput (C29_example 1) 3 4 := ⟨_, _, rfl, rfl, by simp⟩
    have h3 : IsInput (C29_example 1) 4 5 := ⟨_, _, rfl, rfl, by simp⟩
    have h4 : IsInput (C29_example 1) 5 7 := ⟨_, _, rfl, rfl, by simp⟩
    exact .head h1 (.head h2 (.head h3 (.single h4)))

/-- C29, test: the same program with other elements in tensor 0 is a second run. -/
example (y : ℝ) : Replay (C29_example 1) (C29_example y) 7 0 := by
  refine ⟨?_, ?_, ?_, ?_⟩
  · intro i _
    rcases C29_example_cases i with hi | hi
    · interval_cases i <;> rfl
    · simp [shapeOf, dataOf, hi]
  · intro i _ _
    rcases C29_example_cases i with hi | hi
    · interval_cases i <;> rfl
    · simp [historyOf, hi]
  · intro i _ hx hh
    rcases C29_example_cases i with hi | hi
    · interval_cases i <;> first | exact absurd rfl hx | rfl | cases hh
    · simp [historyOf, hi] at hh
  · intro i v _ hv
    rcases C29_example_cases i with hi | hi
    · interval_cases i <;> cases hv <;> simp [WF, leafNode]
    · simp [dataOf, hi] at hv

/-- C29: the heap of `sum (A bmm B)` for a row `A` of 33 zeros and a column `B` of 32 zeros and a one. -/
def C29_witness (c s : ℝ) : Heap ℝ :=
  [leafNode ⟨List.replicate 33 0, [1, 33]⟩, leafNode ⟨List.replicate 32 0 ++ [1], [33, 1]⟩, ⟨⟨[c], [1, 1]⟩, none, some ⟨[0, 1], .bmm⟩⟩,
   leafNode ⟨[1], [1, 1]⟩, ⟨⟨[s], []⟩, some 3, some ⟨[2], .sum⟩⟩]

theorem C29_witness_reachable : ∃ c s, Reachable (C29_witness c s) :=
  ⟨_, _, [.new (List.replicate 33 0) [1, 33], .new (List.replicate 32 0 ++ [1]) [33, 1], .bmm 0 1, .sum 2], rfl⟩

theorem C29_witness_cases (i : Nat) (c s : ℝ) : i < 5 ∨ (C29_witness c s)[i]? = none := by
  rcases Nat.lt_or_ge i 5 with h | h
  · exact Or.inl h
  · exact Or.inr (List.getElem?_eq_none h)

theorem C29_witness_diff {c s : ℝ} (hr : Reachable (C29_witness c s)) : DiffLoss (C29_witness c s) 4 := by
  refine ⟨⟨⟨_, rfl, by simp⟩, rfl, ?_, ?_, ?_, fun _ _ hd => by cases hd⟩, ?_⟩
  · intro i v _ hv
    rcases C29_witness_cases i c s with hi | hi
    · interval_cases i <;> cases hv <;> simp [WF, Pos, leafNode]
    · simp [dataOf, hi] at hv
  · intro i d ha hd
    have hi := ancestor_lt hr.good ha
    interval_cases i <;> cases hd <;> simp
  · intro i a b _ hh
    rcases C29_witness_cases i c s with hi | hi
    · interval_cases i <;> cases hh
      exact ⟨1, 33, 1, rfl, rfl⟩
    · simp [historyOf, hi] at hh
  · intro i a k v _ hh hk hv
    rcases C29_witness_cases i c s with hi | hi
    · interval_cases i <;> cases hh <;> cases hv <;> simp at hk
    · simp [historyOf, hi] at hh

theorem C29_witness_anc (c s : ℝ) : Ancestor (C29_witness c s) 0 4 :=
  have h1 : IsInput (C29_witness c s) 0 2 := ⟨_, _, rfl, rfl, by simp⟩
  have h2 : IsInput (C29_witness c s) 2 4 := ⟨_, _, rfl, rfl, by simp⟩
  .head h1 (.single h2)

theorem C29_B (j : Nat) (hj : j < 33) : (List.replicate 32 (0 : ℝ) ++ [1])[j]? = some (if j = 32 then 1 else 0) := by
  rcases Nat.lt_or_ge j 32 with h | h
  · rw [List.getElem?_append_left (by simpa using h), List.getElem?_replicate, if_pos h, if_neg (by omega)]
  · have : j = 32 := by omega
    subst this
    simp

/-- C29: what `backward` computes for the witness: the first element of the gradient of `A` is the last one of `B`. -/
theorem C29_witness_grad {c s : ℝ} {h' : Heap ℝ} (hr : Reachable (C29_witness c s)) (e : backward (C29_witness c s) 4 = .ok h') :
    ∃ g, gradOf h' 0 = some g ∧ Raw.elem? g [0, 0] = some 1 := by
  obtain ⟨n, d, us, hln, hlen, hd, u1, a1⟩ := backward_inv hr.good e
  cases hln
  cases hd
  have e1 := jvpUpdates_one (s := Raw.newWithFiller [1, 1] 1) (t := ⟨[c], [1, 1]⟩) rfl rfl u1
  obtain ⟨n, rest, hn, rfl, hrest⟩ := childUpdates_inv e1
  cases hn
  rcases hrest with ⟨hd, _⟩ | ⟨d, hd, u2⟩
  · cases hd
  cases hd
  have hA : IsMat (⟨List.replicate 33 0, [1, 33]⟩ : Raw ℝ) 1 33 (fun _ _ => 0) := by
    refine ⟨rfl, by simp [WF], fun i hi j hj => ?_⟩
    rw [List.getElem?_replicate, if_pos (by omega)]
  have hB : IsMat (⟨List.replicate 32 0 ++ [1], [33, 1]⟩ : Raw ℝ) 33 1 (fun i _ => if i = 32 then 1 else 0) := by
    refine ⟨rfl, by simp [WF], fun i hi j hj => ?_⟩
    have : i * 1 + j = i := by omega
    rw [this]
    exact C29_B i hi
  have hG : IsMat (Raw.newWithFiller [1, 1] (1 : ℝ)) 1 (1 * 1) (fun _ _ => 1) := by
    refine ⟨rfl, rfl, fun i hi j hj => ?_⟩
    have : i * (1 * 1) + j = 0 := by omega
    rw [this]
    rfl
  obtain ⟨p, q, b1, b2, b3, b4, b5, b6, b7⟩ := bmmJvp_cells hA hB hG
  obtain ⟨u3, u4, e2, e3, rfl⟩ := jvpUpdates_two (k := .bmm) (t := ⟨List.replicate 33 0, [1, 33]⟩)
    (u := ⟨List.replicate 32 0 ++ [1], [33, 1]⟩) rfl rfl b1 u2
  obtain ⟨n, rest, hn, rfl, hrest⟩ := childUpdates_inv e2
  cases hn
  rcases hrest with ⟨_, rfl⟩ | ⟨d, hd, _⟩
  swap
  · cases hd
  obtain ⟨n, rest, hn, rfl, hrest⟩ := childUpdates_inv e3
  cases hn
  rcases hrest with ⟨_, rfl⟩ | ⟨d, hd, _⟩
  swap
  · cases hd
  have hacc := applyUpdates_grad (t := 0) hr.good (by simp [C29_witness]) a1
  have h0 : gradOf (C29_witness c s) 0 = none := rfl
  rw [h0] at hacc
  have hacc' : (Except.ok (some ⟨p.array, [1, 33]⟩) : R (Option (Raw ℝ))) = .ok (gradOf h' 0) := hacc
  refine ⟨⟨p.array, [1, 33]⟩, (Except.ok.inj hacc').symm, ?_⟩
  have h32 := b6 0 (by omega) 0 (by omega) 32 (by omega)
  have hpos : segPos (1 * (1 * 33)) (0 * (1 * 33) + (0 * 33 + 32)) = 0 := by decide
  rw [hpos] at h32
  rw [Raw.elem?, rowMajor_pair]
  rw [show (0 * 33 + 0 : Nat) = 0 from rfl, h32]
  simp

/-- C29 is false: for matrices with more than 32 elements `backward` permutes the gradient. -/
theorem C29_false : ¬ C29_statement := by
  intro H
  obtain ⟨c, s, hr⟩ := C29_witness_reachable
  have hl := C29_witness_diff hr
  obtain ⟨h', e⟩ := C29_success _ 4 hr hl.toRealLoss (by
    intro x v p hx hv hp
    have := ancestor_lt hr.good hx
    interval_cases x <;> cases hp)
  choose V hV using C29_exists _ 4 0 hr hl.toRealLoss
  obtain ⟨g, h1, _, _, h2⟩ := H _ h' 4 2 0 _ hr hl rfl e (C29_witness_anc c s) rfl (by intro p hp; cases hp) (fun _ => 0) (by
    intro idx hidx
    have := rowMajor_lt hidx
    simp only [Raw.elem?, leafNode, List.getElem?_replicate]
    rw [if_pos (by simpa [leafNode] using this)]) V hV
  obtain ⟨D, h3, h4⟩ := h2 [0, 0] (inRange2.2 ⟨by omega, by omega⟩) [] .nil
  obtain ⟨g', h5, h6⟩ := C29_witness_grad hr e
  rw [h1] at h5
  cases h5
  rw [h4] at h6
  have h0 : gradOf (C29_witness c s) 0 = none := rfl
  rw [h0] at h6
  have hD : D = 1 := by simpa [coord] using h6
  have hconst : (fun y => V (Function.update (fun _ => 0) [0, 0] y) 4 []) = fun _ => (0 : ℝ) := by
    funext y
    have hv := hV (Function.update (fun _ => 0) [0, 0] y)
    have f2 : Feeds (C29_witness c s) 2 4 := Or.inr (.single ⟨_, _, rfl, rfl, by simp⟩)
    have f1 : Feeds (C29_witness c s) 1 4 := Or.inr (.head (b := 2) ⟨_, _, rfl, rfl, by simp⟩ (.single ⟨_, _, rfl, rfl, by simp⟩))
    rw [hv.sum 4 2 (Or.inl rfl) (by omega) rfl]
    have : allIndices (shapeOf (C29_witness c s) 2) = [[0, 0]] := rfl
    rw [this]
    simp only [List.map_cons, List.map_nil, List.sum_cons, List.sum_nil, add_zero]
    rw [hv.bmm 2 0 1 f2 (by omega) rfl 1 33 1 rfl rfl 0 (by omega) 0 (by omega)]
    apply Finset.sum_eq_zero
    intro j hj
    rw [Finset.mem_range] at hj
    rw [hv.self [0, j] (inRange2.2 ⟨by omega, hj⟩)]
    have hb := hv.leaf 1 _ f1 (by omega) rfl rfl [j, 0] (inRange2.2 ⟨hj, by omega⟩)
    have hb' : Raw.elem? (⟨List.replicate 32 0 ++ [1], [33, 1]⟩ : Raw ℝ) [j, 0] = some (if j = 32 then 1 else 0) := by
      rw [Raw.elem?, rowMajor_pair, Nat.mul_one, Nat.add_zero]
      exact C29_B j hj
    rw [← Option.some.inj (hb'.symm.trans hb)]
    by_cases hj0 : j = 0
    · subst hj0
      simp
    · rw [Function.update_of_ne (by simpa using hj0)]
      simp
  rw [hconst] at h3
  have := h3.unique (hasDerivAt_const _ _)
  rw [hD] at this
  exact one_ne_zero this

/-! ## `sum`s inside of a loss (C59) -/

/-- C59, full statement: `backward` adds the derivative also if results of `sum` are used in further operations. -/
def C59_statement : Prop :=
  ∀ (h h' : Heap ℝ) (l x : Nat) (v : Raw ℝ), Reachable h → DiffLoss h l → SmallFor h l x → backward h l = .ok h' →
    Ancestor h x l → dataOf h x = some v → (∀ p, gradOf h x = some p → p.shape = v.shape ∧ WF p) → ∀ X : List Nat → ℝ,
    (∀ idx, InRange v.shape idx → Raw.elem? v idx = some (X idx)) → ∀ V : (List Nat → ℝ) → Nat → List Nat → ℝ, (∀ Y, Reeval h l x Y (V Y)) →
    ∃ g, gradOf h' x = some g ∧ g.shape = v.shape ∧ WF g ∧ ∀ c, InRange v.shape c → ∀ il, InRange (shapeOf h l) il →
      ∃ D, HasDerivAt (fun y => V (Function.update X c y) l il) D (X c) ∧ Raw.elem? g c = some (coord (gradOf h x) c + D)

/-- C59: the heap of `sum a - sum b` for tensors with one element. -/
def C59_witness : Heap ℝ :=
  [leafNode ⟨[5], [1]⟩, leafNode ⟨[3], [1]⟩, leafNode ⟨[1], [1]⟩, ⟨⟨[0 + 5], []⟩, some 2, some ⟨[0], .sum⟩⟩,
   leafNode ⟨[1], [1]⟩, ⟨⟨[0 + 3], []⟩, some 4, some ⟨[1], .sum⟩⟩, ⟨⟨[-(0 + 3)], []⟩, none, some ⟨[5], .neg⟩⟩,
   ⟨⟨[0 + 5 + -(0 + 3)], []⟩, none, some ⟨[3, 6], .add⟩⟩]

theorem C59_witness_reachable : Reachable C59_witness :=
  ⟨[.new [5] [1], .new [3] [1], .sum 0, .sum 1, .sub 3 5], rfl⟩

theorem C59_witness_cases (i : Nat) : i < 8 ∨ C59_witness[i]? = none := by
  rcases Nat.lt_or_ge i 8 with h | h
  · exact Or.inl h
  · exact Or.inr (List.getElem?_eq_none h)

theorem C59_witness_diff : DiffLoss C59_witness 7 := by
  refine ⟨⟨⟨_, rfl, by simp⟩, rfl, ?_, ?_, ?_, fun _ _ hd => by cases hd⟩, ?_⟩
  · intro i v _ hv
    rcases C59_witness_cases i with hi | hi
    · interval_cases i <;> cases hv <;> simp [WF, Pos, leafNode]
    · simp [dataOf, hi] at hv
  · intro i d ha hd
    have hi := ancestor_lt C59_witness_reachable.good ha
    interval_cases i <;> cases hd <;> simp
  · intro i a b _ hh
    rcases C59_witness_cases i with hi | hi
    · interval_cases i <;> cases hh
    · simp [historyOf, hi] at hh
  · intro i a k v _ hh hk hv
    rcases C59_witness_cases i with hi | hi
    · interval_cases i <;> cases hh <;> cases hv <;> simp at hk
    · simp [historyOf, hi] at hh

/-- C59 is false: `backward` of `sum a - sum b` gives `b` the gradient 1 instead of -1. -/
theorem C59_false : ¬ C59_statement := by
  intro H
  have hr := C59_witness_reachable
  have hl := C59_witness_diff
  obtain ⟨h', e⟩ := C29_success _ 7 hr hl.toRealLoss (by
    intro x v p hx hv hp
    have := ancestor_lt hr.good hx
    interval_cases x <;> cases hv <;> cases hp <;> simp [WF, Pos, leafNode])
  have i1 : IsInput C59_witness 1 5 := ⟨_, _, rfl, rfl, by simp⟩
  have i5 : IsInput C59_witness 5 6 := ⟨_, _, rfl, rfl, by simp⟩
  have i6 : IsInput C59_witness 6 7 := ⟨_, _, rfl, rfl, by simp⟩
  have i0 : IsInput C59_witness 0 3 := ⟨_, _, rfl, rfl, by simp⟩
  have i3 : IsInput C59_witness 3 7 := ⟨_, _, rfl, rfl, by simp⟩
  have f6 : Feeds C59_witness 6 7 := Or.inr (.single i6)
  have f5 : Feeds C59_witness 5 7 := Or.inr (.head i5 (.single i6))
  have f3 : Feeds C59_witness 3 7 := Or.inr (.single i3)
  have f0 : Feeds C59_witness 0 7 := Or.inr (.head i0 (.single i3))
  have hx : Ancestor C59_witness 1 7 := .head i1 (.head i5 (.single i6))
  have s1 : allIndices (shapeOf C59_witness 1) = [[0]] := rfl
  have s0 : allIndices (shapeOf C59_witness 0) = [[0]] := rfl
  have r1 : InRange [1] [0] := .cons (by omega) .nil
  choose V hV using C29_exists _ 7 1 hr hl.toRealLoss
  obtain ⟨g, h1, _, _, h2⟩ := H _ h' 7 1 ⟨[3], [1]⟩ hr hl (by
    intro i a b _ hh
    rcases C59_witness_cases i with hi | hi
    · interval_cases i <;> cases hh
    · simp [historyOf, hi] at hh) e hx rfl (by intro p hp; cases hp) (fun _ => 3) (by
    intro idx hidx
    have := rowMajor_lt hidx
    have h0 : rowMajor [1] idx = 0 := by simpa using this
    simp [Raw.elem?, h0]) V hV
  obtain ⟨D, h3, h4⟩ := h2 [0] r1 [] .nil
  obtain ⟨g', h5, _, _, h6⟩ := C29_actual _ h' 7 1 ⟨[3], [1]⟩ hr hl.toRealLoss e hx rfl (by intro p hp; cases hp)
  obtain ⟨σ, ε, hσ⟩ := C29_sweeps_exist C59_witness 7 1 [0] hr
  have h7 := h6 [0] r1 [] .nil σ ε hσ
  rw [h1] at h5
  cases h5
  rw [h4, Option.some.injEq, add_right_inj] at h7
  have e3 : ε 3 = 0 := by
    rw [hσ.sums 3 0 f3 (by omega) rfl, s0, hσ.none 0 f0 (by omega) rfl]
    simp [hσ.leaf 0 f0 (by omega) rfl [0] r1]
  have e5 : ε 5 = 1 := by
    rw [hσ.sums 5 1 f5 (by omega) rfl, s1, hσ.stop]
    simp [hσ.self [0] r1]
  have hD : D = 1 := by
    rw [h7, hσ.add 7 3 6 (Or.inl rfl) (by omega) rfl [] .nil, hσ.pass 7 _ (Or.inl rfl) (by omega) rfl (by simp)]
    have b3 : bproj (shapeOf C59_witness 3) [] = [] := rfl
    have b6 : bproj (shapeOf C59_witness 6) [] = [] := rfl
    simp only [List.map_cons, List.map_nil, List.sum_cons, List.sum_nil, add_zero]
    rw [b3, b6, hσ.cut 3 0 f3 (by omega) rfl, hσ.neg 6 5 f6 (by omega) rfl [] .nil, hσ.cut 5 1 f5 (by omega) rfl, e3,
      hσ.pass 6 _ f6 (by omega) rfl (by simp)]
    simp [e5]
  have hfun : (fun y => V (Function.update (fun _ => 3) [0] y) 7 []) = fun y => 5 + -y := by
    funext y
    have hv := hV (Function.update (fun _ => 3) [0] y)
    have b3 : bproj (shapeOf C59_witness 3) [] = [] := rfl
    have b6 : bproj (shapeOf C59_witness 6) [] = [] := rfl
    rw [hv.add 7 3 6 (Or.inl rfl) (by omega) rfl [] .nil, b3, b6, hv.neg 6 5 f6 (by omega) rfl [] .nil, hv.sum 3 0 f3 (by omega) rfl,
      hv.sum 5 1 f5 (by omega) rfl, s0, s1]
    simp only [List.map_cons, List.map_nil, List.sum_cons, List.sum_nil, add_zero]
    rw [hv.self [0] r1, Function.update_self]
    have h0 := hv.leaf 0 _ f0 (by omega) rfl rfl [0] r1
    have h0' : Raw.elem? (⟨[5], [1]⟩ : Raw ℝ) [0] = some 5 := rfl
    rw [← Option.some.inj (h0'.symm.trans h0)]
  rw [hfun] at h3
  have := h3.unique ((hasDerivAt_id (3 : ℝ)).neg.const_add 5)
  rw [hD] at this
  norm_num at this

/-- C59, test: the heap of `sum a + sum b`. -/
def C59_example : Heap ℝ :=
  [leafNode ⟨[5, 6], [2]⟩, leafNode ⟨[3], [1]⟩, leafNode ⟨[1, 1], [2]⟩, ⟨⟨[0 + 5 + 6], []⟩, some 2, some ⟨[0], .sum⟩⟩,
   leafNode ⟨[1], [1]⟩, ⟨⟨[0 + 3], []⟩, some 4, some ⟨[1], .sum⟩⟩, ⟨⟨[0 + 5 + 6 + (0 + 3)], []⟩, none, some ⟨[3, 5], .add⟩⟩]

/-- C59, test: the condition of `C59_partial` and `C29_partial` on the `sum`s allows to add them. -/
example : Reachable C59_example ∧ SumsOnTop C59_example 6 0 ∧ Ancestor C59_example 0 6 ∧ RealLoss C59_example 6 := by
  have hr : Reachable C59_example := ⟨[.new [5, 6] [2], .new [3] [1], .sum 0, .sum 1, .add 3 5], rfl⟩
  have hc : ∀ i, i < 7 ∨ C59_example[i]? = none := fun i => by
    rcases Nat.lt_or_ge i 7 with h | h
    · exact Or.inl h
    · exact Or.inr (List.getElem?_eq_none h)
  have i0 : IsInput C59_example 0 3 := ⟨_, _, rfl, rfl, by simp⟩
  have i3 : IsInput C59_example 3 6 := ⟨_, _, rfl, rfl, by simp⟩
  refine ⟨hr, ?_, .head i0 (.single i3), ⟨_, rfl, by simp⟩, rfl, ?_, ?_, ?_, fun _ _ hd => by cases hd⟩
  · intro i d a s b _ hh ha hs hsum hxs
    have hx := ancestor_lt hr.good hxs
    rcases hc i with hi | hi
    · have hsa : s ≤ a := by
        rcases hs with rfl | hs
        · exact le_refl _
        · exact (ancestor_lt hr.good hs).le
      interval_cases i <;> cases hh <;> simp at ha
      · omega
      · subst ha
        interval_cases s
        cases hsum
      · rcases ha with rfl | rfl <;> exact ⟨Or.inl rfl, rfl, rfl⟩
    · simp [historyOf, hi] at hh
  · intro i v _ hv
    rcases hc i with hi | hi
    · interval_cases i <;> cases hv <;> simp [WF, Pos, leafNode]
    · simp [dataOf, hi] at hv
  · intro i d ha hd
    have hi := ancestor_lt hr.good ha
    interval_cases i <;> cases hd <;> simp
  · intro i a b _ hh
    rcases hc i with hi | hi
    · interval_cases i <;> cases hh
    · simp [historyOf, hi] at hh

end

section
attribute [local instance] Test.intFn

/-- C59, test: `sum a - sum b` on the model: both gradients are 1. The same with `sum a + sum b`. -/
example : (do
    let h ← runOps [] [Op.new [5, 6] [2], .new [3] [1], .sum 0, .sum 1, .sub 3 5, .backward 7]
    let k ← runOps [] [Op.new [5, 6] [2], .new [3] [1], .sum 0, .sum 1, .add 3 5, .backward 6]
    return [gradOf h 0, gradOf h 1, gradOf k 0, gradOf k 1]) =
    (.ok [some ⟨[1, 1], [2]⟩, some ⟨[1], [1]⟩, some ⟨[1, 1], [2]⟩, some ⟨[1], [1]⟩] : R (List (Option (Raw Int)))) := by
  decide +kernel

end

end RL
