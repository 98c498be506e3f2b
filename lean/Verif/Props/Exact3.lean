import Verif.Props.Settle
import Verif.Props.Tying
import Verif.Props.Memory
import Verif.Props.Text

/-!
# Exactly when C48, C61, C68, C91 and C104 hold

C48 and C68 hold only for networks without parameters.
-/

namespace RL

open Spec

section
variable {T : Type} [Zero T] [One T] [Add T] [Mul T] [Sub T] [Neg T] [LT T] [DecidableLT T] [LE T] [DecidableLE T] [RealFn T]

/-- C48, exactly: a parameter never is without history after a step. So the full statement holds for a step if and only if the network
has no parameters. -/
theorem C48_exact (h h' : Heap T) (mlp mlp' : Mlp T) (s : Nat) (hr : Reachable h) (e : mlp.sgdStep h s = .ok (h', mlp')) :
    (∀ q ∈ mlp'.params, historyOf h' q ≠ some none) ∧ ((∀ q ∈ mlp'.params, historyOf h' q = some none) ↔ mlp.params = []) := by
  have hc := C48_chain 1 h h' mlp mlp' hr (.step .start (ops := []) rfl e)
  have hn : ∀ q ∈ mlp'.params, historyOf h' q ≠ some none := by
    intro q hq
    obtain ⟨k, hk, rfl⟩ := List.getElem_of_mem hq
    have := hc.get (by rw [hc.length_eq]; exact hk) hk
    simp only [List.get_eq_getElem] at this
    rcases this with ⟨h0, _⟩ | ⟨_, hp⟩
    · omega
    · cases hp with
      | one h1 h2 _ => intro h3; simp [historyOf, h1, h2] at h3
      | cons h1 h2 _ _ => intro h3; simp [historyOf, h1, h2] at h3
  refine ⟨hn, fun h1 => ?_, fun h1 => ?_⟩
  · rw [← List.length_eq_zero_iff, hc.length_eq, List.length_eq_zero_iff]
    exact List.eq_nil_iff_forall_not_mem.2 fun q hq => hn q hq (h1 q hq)
  · have : mlp'.params = [] := by rw [← List.length_eq_zero_iff, ← hc.length_eq, h1]; rfl
    rw [this]
    simp

/-- C61, exactly: two places of a network hold the same tensor after a step if and only if they are one place. -/
theorem C61_exact (h h' : Heap T) (mlp mlp' : Mlp T) (s i j : Nat) (e : mlp.sgdStep h s = .ok (h', mlp')) (hi : i < mlp'.params.length) :
    mlp'.params[i]? = mlp'.params[j]? ↔ i = j := by
  constructor
  · intro h1
    have hj := getElem?_lt (h1.symm.trans (List.getElem?_eq_getElem hi))
    rw [List.getElem?_eq_getElem hi, List.getElem?_eq_getElem hj] at h1
    exact (List.Nodup.getElem_inj_iff (C61_distinct h h' mlp mlp' s e)).1 (Option.some.inj h1)
  · rintro rfl; rfl

/-- C68, exactly: for a network with parameters it never holds, whatever is done and whatever is dropped: something else than the parameters
and their gradients is in memory. -/
theorem C68_never (os : List (MemOp T)) (m : Mem T) (e : runMem Mem.empty os = .ok m) (n : Nat) (h : Heap T) (mlp mlp' : Mlp T)
    (hr : Reachable h) (ht : Trains n h mlp m.heap mlp') (hn : 0 < n) (hp : ∀ p ∈ mlp'.params, p ∈ m.held) (h0 : mlp.params ≠ []) :
    ∃ i, Live m i ∧ i ∉ mlp'.params ∧ ∀ p ∈ mlp'.params, ∀ nd, m.heap[p]? = some nd → nd.grad ≠ some i := by
  classical
  obtain ⟨S, h1, h2⟩ := C68_growth os m e n h mlp mlp' hr ht hp
  have hl : mlp.params.length = mlp'.params.length := (C48_chain n h m.heap mlp mlp' hr ht).length_eq
  have hpos : 0 < mlp.params.length := List.length_pos_of_ne_nil h0
  let A : Finset Nat := mlp'.params.toFinset ∪ (mlp'.params.filterMap fun p => m.heap[p]?.bind Node.grad).toFinset
  have hA : A.card ≤ 2 * mlp.params.length := by
    refine (Finset.card_union_le _ _).trans ?_
    have h3 := List.toFinset_card_le mlp'.params
    have h4 := (List.toFinset_card_le (mlp'.params.filterMap fun p => m.heap[p]?.bind Node.grad)).trans (List.length_filterMap_le _ _)
    omega
  have hlt : A.card < S.card := by
    rw [h1]
    have : 3 * 1 * mlp.params.length ≤ 3 * n * mlp.params.length := Nat.mul_le_mul_right _ (by omega)
    omega
  obtain ⟨i, hi, hiA⟩ := Finset.exists_mem_notMem_of_card_lt_card hlt
  refine ⟨i, h2 i hi, fun h3 => hiA (Finset.mem_union_left _ (List.mem_toFinset.2 h3)), fun p h3 nd h4 h5 => hiA ?_⟩
  exact Finset.mem_union_right _ (List.mem_toFinset.2 (List.mem_filterMap.2 ⟨p, h3, by rw [h4]; exact h5⟩))

/-- C70, exactly for one owned tensor: if `backward` contributed to its gradient more than once, something else than the tensor and its gradient is in
memory. -/
theorem C70_never (os : List (MemOp T)) (m : Mem T) (e : runMem Mem.empty os = .ok m) (n t : Nat) (h : Heap T) (hr : Reachable h)
    (ha : Accumulates t n h m.heap) (ht : t ∈ m.held) (hn : 2 ≤ n) (nd : Node T) (hd : m.heap[t]? = some nd) :
    ∃ i, Live m i ∧ i ≠ t ∧ nd.grad ≠ some i := by
  classical
  obtain ⟨S, h1, h2⟩ := C70_growth os m e n t h hr ha ht
  let A : Finset Nat := {t} ∪ nd.grad.toFinset
  have hA : A.card ≤ 2 := by
    refine (Finset.card_union_le _ _).trans ?_
    cases hg : nd.grad <;> simp
  obtain ⟨i, hi, hiA⟩ := Finset.exists_mem_notMem_of_card_lt_card (show A.card < S.card by omega)
  refine ⟨i, h2 i hi, fun h3 => hiA ?_, fun h3 => hiA ?_⟩
  · subst h3; exact Finset.mem_union_left _ (Finset.mem_singleton_self _)
  · exact Finset.mem_union_right _ (by simp [h3])

end

/-- C104, exactly: two tensors are printed alike if and only if they have the same elements in memory order, whatever their shapes. -/
theorem C104_exact {T : Type} (text : T → List Char) (hl : Legible text) (g h : Heap T) (s t : Nat) (v w : Raw T) (hv : dataOf g s = some v)
    (hw : dataOf h t = some w) : displayFmt text g s = displayFmt text h t ↔ v.array = w.array := by
  refine ⟨C104_array text hl g h s t v w hv hw, fun e => ?_⟩
  obtain ⟨n, hn, e1⟩ := Option.map_eq_some_iff.1 hv
  obtain ⟨m, hm, e2⟩ := Option.map_eq_some_iff.1 hw
  simp only [displayFmt, Heap.node_eq_ok.2 hn, Heap.node_eq_ok.2 hm]
  show Except.ok (vecText text n.val.array) = Except.ok (vecText text m.val.array)
  rw [e1, e2, e]

/-- C91, exactly: a training step of a network of any depth that computes the expected outputs leaves its parameters as they are if and only
if the learning rate is 0, there are no rows or no outputs, or the last activation is `relu` and everything that goes into it is negative. -/
theorem C91_exact (h : Heap ℝ) (mlp : Mlp ℝ) (x y m k n : Nat) (f : Act) (pre : List (Nat × Act)) (a b θ : Nat → Nat → ℝ) (lr : ℝ)
    (ht : Training h mlp x y m k (pre ++ [(n, f)]) a b θ)
    (hfit : ∀ i < m, ∀ j < n, netValue k (layerFns θ 0 (pre ++ [(n, f)])) a i j = b i j) :
    (∃ h' mlp', trainStep mlp h x y lr = .ok (h', mlp') ∧ NetIs h' mlp' k (pre ++ [(n, f)]) θ) ↔
      lr = 0 ∨ m = 0 ∨ n = 0 ∨ f = .relu ∧ ∀ i < m, ∀ j < n,
        affine (lastWidth k pre) (netValue k (layerFns θ 0 pre) a) (fun i j => θ (2 * pre.length) (i * n + j)) (θ (2 * pre.length + 1)) i j < 0 := by
  obtain ⟨h', mlp', e, t⟩ := C50_step_actual h mlp x y m k _ a b θ lr ht
  constructor
  · rintro ⟨h2, mlp2, e2, hn2⟩
    rw [e] at e2
    cases e2
    by_cases hlr : lr = 0
    · exact .inl hlr
    refine .inr ?_
    have key : ∀ i < m, ∀ j < n, f.slope (lastIn k n pre θ a i j) = 0 := by
      have hs0 : ∀ z, 0 ≤ f.slope z := by
        intro z
        cases f with
        | identity => simp [Act.slope]
        | relu => simp only [Act.slope]; split <;> norm_num
        | tanh => simpa [Act.slope] using (Real.tanh_sq_lt_one z).le
      intro i hi j hj
      have h1 := t.net.unique hn2 (last_bias_mem k n pre f hj)
      have h2 := loss_last_bias (m := m) (k := k) (f := f) (pre := pre) (θ := θ) a b hj
      unfold unit at h2
      rw [shuffledDescend, h2] at h1
      have h3 : ∑ i ∈ Finset.range m, f.slope (lastIn k n pre θ a i j) = 0 := by
        rw [← Finset.sum_congr rfl fun i hi => show (if f.fn (lastIn k n pre θ a i j) < b i j then (-1 : ℝ) else 1) *
            f.slope (lastIn k n pre θ a i j) = f.slope (lastIn k n pre θ a i j) by
          rw [← value_last, hfit i (Finset.mem_range.1 hi) j hj, if_neg (lt_irrefl _), one_mul]]
        exact (mul_eq_zero.1 (sub_eq_self.1 h1)).resolve_left hlr
      exact (Finset.sum_eq_zero_iff_of_nonneg fun i _ => hs0 _).1 h3 i (Finset.mem_range.2 hi)
    by_cases hm : m = 0
    · exact .inl hm
    by_cases hn : n = 0
    · exact .inr (.inl hn)
    refine .inr (.inr ?_)
    have h0 := key 0 (Nat.pos_of_ne_zero hm) 0 (Nat.pos_of_ne_zero hn)
    cases f with
    | identity => simp [Act.slope] at h0
    | tanh =>
      have := Real.tanh_sq_lt_one (lastIn k n pre θ a 0 0)
      simp only [Act.slope] at h0
      linarith
    | relu =>
      refine ⟨rfl, fun i hi j hj => ?_⟩
      have := key i hi j hj
      simp only [Act.slope] at this
      by_contra h4
      rw [lastIn, if_neg h4] at this
      exact one_ne_zero this
  · intro hc
    have hfix : shuffledDescend lr m k (pre ++ [(n, f)]) a b θ = θ := by
      funext q c
      rw [shuffledDescend]
      rcases hc with rfl | hc
      · rw [zero_mul, sub_zero]
      rw [loss_last_dead, mul_zero, sub_zero]
      intro i hi j hj
      rcases hc with rfl | rfl | ⟨rfl, hd⟩
      · omega
      · omega
      · have := hd i hi j hj
        simp only [lastIn, Act.slope, this, if_true]
    rw [hfix] at t
    exact ⟨h', mlp', e, t.net⟩

/-- TEST of `C91_exact`: a network that computes 0, as expected, with the activation `identity` gets other parameters from a step with any
learning rate but 0, and with `relu` and a negative bias it keeps them. -/
example (lr : ℝ) (hlr : lr ≠ 0) :
    (∃ h mlp x y, Training h mlp x y 1 1 [(1, .identity)] (fun _ _ => 0) (fun _ _ => 0) (fun _ _ => 0) ∧
      ¬ ∃ h' mlp', trainStep mlp h x y lr = .ok (h', mlp') ∧ NetIs h' mlp' 1 [(1, .identity)] fun _ _ => 0) ∧
    ∃ h mlp x y, Training h mlp x y 1 1 [(1, .relu)] (fun _ _ => 0) (fun _ _ => 0) (fun _ _ => -1) ∧
      ∃ h' mlp', trainStep mlp h x y lr = .ok (h', mlp') ∧ NetIs h' mlp' 1 [(1, .relu)] fun _ _ => -1 := by
  constructor
  · have ht := training_exists 1 1 [(1, .identity)] (fun _ _ => 0) (fun _ _ => 0) (fun _ _ => 0) one_pos one_pos (by simp)
    refine ⟨_, _, _, _, ht, fun h => ?_⟩
    have := (C91_exact _ _ _ _ 1 1 1 .identity [] _ _ _ lr ht (by
      intro i _ j _
      simp [layerFns, netValue, affine_sum, Act.fn])).1 h
    simp [hlr] at this
  · have ht := training_exists 1 1 [(1, .relu)] (fun _ _ => 0) (fun _ _ => 0) (fun _ _ => -1) one_pos one_pos (by simp)
    refine ⟨_, _, _, _, ht, (C91_exact _ _ _ _ 1 1 1 .relu [] _ _ _ lr ht ?_).2 (.inr (.inr (.inr ⟨rfl, ?_⟩)))⟩
    · intro i _ j _
      simp [layerFns, netValue, affine_sum, Act.fn]
    · intro i _ j _
      simp [layerFns, netValue, affine_sum]

end RL
