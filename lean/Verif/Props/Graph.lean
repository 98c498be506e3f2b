import Verif.Lemmas.Accum
import Verif.Lemmas.TestInt
import Mathlib.Algebra.Ring.Int.Defs

/-!
# Properties of the autograd graph (C09, C27, C35-C38, C40, C43, C49)
-/

namespace RL

open Spec

variable {T : Type}

attribute [local instance] Test.intFn

section
variable [Zero T] [One T] [Add T] [Mul T] [Sub T] [Neg T] [LT T] [DecidableLT T] [LE T] [DecidableLE T] [RealFn T]

theorem Spec.Reachable.run {h h' : Heap T} {ops : List (Op T)} (hr : Reachable h) (e : runOps h ops = .ok h') : Reachable h' := by
  obtain ⟨ops0, e0⟩ := hr
  exact ⟨ops0 ++ ops, by rw [runOps_append, e0]; exact e⟩

theorem Spec.Reachable.op {h h' : Heap T} {op : Op T} (hr : Reachable h) (e : op.run h = .ok h') : Reachable h' :=
  hr.run (ops := [op]) (by rw [runOps_cons, e]; rfl)

theorem frame_data {h h' : Heap T} (hf : Frame h h') {t : Nat} (ht : t < h.length) :
    dataOf h' t = dataOf h t ∧ historyOf h' t = historyOf h t := by
  obtain ⟨g, hg⟩ := hf.get (List.getElem?_eq_getElem ht)
  simp [dataOf, historyOf, hg, List.getElem?_eq_getElem ht]

/-! ## data length matches the shape (C09) -/

/-- C09, full statement. It is false: see `C09_false`. -/
def C09_statement (T : Type) [Zero T] [One T] [Add T] [Mul T] [Sub T] [Neg T] [LT T] [DecidableLT T] [LE T] [DecidableLE T]
    [RealFn T] : Prop :=
  ∀ (ops : List (Op T)) (h : Heap T), runOps [] ops = .ok h → ∀ t v, dataOf h t = some v → WF v

/-- C09 does not hold: a scalar times a view of part of a tensor has the view's shape but as many elements as the
whole tensor. -/
theorem C09_false : ¬ C09_statement Int := by
  intro hs
  have e : runOps [] [Op.scalar (2 : Int), .new [1, 2, 3] [3], .mulView 0 (.view 1 [⟨0, 1⟩])] =
      .ok [⟨⟨[2], []⟩, none, none⟩, ⟨⟨[1, 2, 3], [3]⟩, none, none⟩, ⟨⟨[2, 4, 6], [1]⟩, none, none⟩] := by decide
  have := hs _ _ e 2 ⟨[2, 4, 6], [1]⟩ rfl
  exact absurd this (by simp [WF])

/-- C09 does not hold either for `RawTensor::default()`, which has the shape of a scalar and no element. -/
theorem C09_default_false : ¬ ∀ (h : Heap Int), runOps [] [Op.default] = .ok h → ∀ t v, dataOf h t = some v → WF v := by
  intro hs
  exact absurd (hs _ rfl 0 ⟨[], []⟩ rfl) (by simp [WF])

/-- C09 for all histories without `RawTensor::default()` in which no scalar is multiplied with a view (by `*` from the left, or by one of
the two methods). Missing from the full statement: exactly these operations, for which it is false. -/
theorem C09_partial (ops : List (Op T)) (h : Heap T) (e : runOps [] ops = .ok h)
    (hsafe : ∀ pre op post hp, ops = pre ++ op :: post → runOps [] pre = .ok hp → ¬ Misshaping hp op) :
    ∀ t v, dataOf h t = some v → WF v := by
  suffices H : ∀ (ops pre : List (Op T)) (h0 h : Heap T), runOps [] pre = .ok h0 → AllWF h0 → runOps h0 ops = .ok h →
      (∀ pre' op post hp, pre ++ ops = pre' ++ op :: post → runOps [] pre' = .ok hp → ¬ Misshaping hp op) → AllWF h by
    intro t v hv
    have hw := H ops [] [] h rfl (by intro i n hn; simp at hn) e (by simpa using hsafe)
    simp only [dataOf, Option.map_eq_some_iff] at hv
    obtain ⟨n, hn, rfl⟩ := hv
    exact hw t n hn
  intro ops
  induction ops with
  | nil => intro pre h0 h _ hw e _; cases e; exact hw
  | cons op ops ih =>
    intro pre h0 h e0 hw e hs
    rw [runOps_cons, R.bind_eq_ok] at e
    obtain ⟨h1, e1, e2⟩ := e
    refine ih (pre ++ [op]) h1 h (by rw [runOps_append, e0, R.bind_ok, runOps_cons, e1]; rfl) ?_ e2 (by simpa using hs)
    exact Op.run_wf (runOps_good e0) hw (hs pre op ops h0 rfl e0) e1

/-- C09, test: the two methods on a view. -/
example : (do
    let h ← runOps [] [Op.new [1, 2, 3] [3], .leftMul 2 (.view (.view 0 [⟨0, 1⟩])), .rightMul (.view (.view 0 [⟨1, 3⟩])) 3,
      .leftMul 2 (.tensor 0)]
    return [dataOf h 1, dataOf h 2, dataOf h 3]) =
    (.ok [some ⟨[2, 4, 6], [1]⟩, some ⟨[3, 6, 9], [2]⟩, some ⟨[2, 4, 6], [3]⟩] : R (List (Option (Raw Int)))) := by decide

example : ∃ h, runOps [] [Op.new [1, 2, 3] [3], .mulView 0 (.view 0 [⟨0, 3⟩]), .sum 1, .backward 3] = .ok (h : Heap Int) :=
  ⟨_, rfl⟩

/-! ## immutability (C49) -/

/-- C49: an operation other than `update_grad`, `zero_grad`, `backward` changes nothing of an existing tensor: not its
data, not its history, not its gradient tensor, nor what this gradient tensor holds. -/
theorem C49_pure (h h' : Heap T) (op : Op T) (hr : Reachable h)
    (hop : ∀ t g, op ≠ .updateGrad t g ∧ op ≠ .zeroGrad t ∧ op ≠ .backward t) (e : op.run h = .ok h') (t : Nat) (ht : t < h.length) :
    h'[t]? = h[t]? ∧ gradOf h' t = gradOf h t := by
  have ho := op.isGrad_false hop
  have ha := op.run_allocs ho e
  obtain ⟨⟨ns, rfl⟩, -⟩ := id ha
  have h1 : (h ++ ns)[t]? = h[t]? := List.getElem?_append_left ht
  exact ⟨h1, gradOf_congr hr.good ha.frame (List.getElem?_eq_getElem ht) (by rw [h1, List.getElem?_eq_getElem ht])⟩

/-- C49: over a whole history, whatever the operations, data and history of a tensor never change. -/
theorem C49_history (h h' : Heap T) (ops : List (Op T)) (hr : Reachable h) (e : runOps h ops = .ok h') (t : Nat)
    (ht : t < h.length) : dataOf h' t = dataOf h t ∧ historyOf h' t = historyOf h t :=
  frame_data (runOps_frame hr.good e).1 ht

/-- C49: `update_grad` changes the gradient of one tensor only. -/
theorem C49_update_grad (h h' : Heap T) (t g : Nat) (hr : Reachable h) (e : (Op.updateGrad t g).run h = .ok h') (s : Nat)
    (hs : s < h.length) (hne : s ≠ t) : h'[s]? = h[s]? := by
  simp only [Op.run, R.bind_eq_ok] at e
  obtain ⟨_, _, e⟩ := e
  obtain ⟨n, hn, ⟨_, rfl⟩ | ⟨o, on, gn, v, _, ho, hg, hv, rfl⟩⟩ := updateGrad_inv e
  · exact List.getElem?_set_ne (Ne.symm hne)
  · rw [List.getElem?_set_ne (Ne.symm hne), List.getElem?_append_left hs]

/-- C49, test: a history using most operations. -/
example : ∃ h, runOps [] [Op.new [1, 2] [2], .add 0 0, .sub 1 0, .relu 3, .sum 4, .backward 6, .zeroGrad 0, .deepClone 0] =
    .ok (h : Heap Int) ∧ dataOf h 0 = some ⟨[1, 2], [2]⟩ := ⟨_, rfl, rfl⟩

/-! ## termination (C35) -/

/-- C35: no history of public operations diverges; in particular no call of `backward`. -/
theorem C35_terminates (ops : List (Op T)) : runOps [] ops ≠ .error (.panic .diverge) := ND.runOps Heap.good_nil

/-- C35: on every graph public operations can build, the recursion of `backward` gives the same result with any
recursion depth allowed that is at least the number of tensors: the bound in the model is never reached. -/
theorem C35_depth (h : Heap T) (hr : Reachable h) (l : Nat) (n : Node T) (d : Deriv) (hn : h[l]? = some n)
    (hd : n.gradFn = some d) (gs : List (Raw T)) (fuel : Nat) (hf : h.length < fuel) :
    computeJvp fuel h d gs = computeJvp (h.length + 1) h d gs ∧ computeJvp fuel h d gs ≠ .error (.panic .diverge) := by
  obtain ⟨k, rfl⟩ : ∃ k, fuel = k + 1 := ⟨fuel - 1, by omega⟩
  have hold := (hr.good l n hn).older d hd
  have hl := getElem?_lt hn
  exact computeJvp_fuel hr.good k h.length (Frame.refl h) fun i hi => by have := hold i hi; omega

/-- C35: recorded inputs are always older than the tensor itself, so the graph has no cycles. -/
theorem C35_acyclic (h : Heap T) (hr : Reachable h) (a b : Nat) (hab : Ancestor h a b) : a < b := by
  induction hab with
  | single hi => obtain ⟨n, d, h1, h2, h3⟩ := hi; exact (hr.good _ n h1).older d h2 _ h3
  | tail _ hi ih => obtain ⟨n, d, h1, h2, h3⟩ := hi; exact ih.trans ((hr.good _ n h1).older d h2 _ h3)

example : Reachable ([⟨⟨[3], [1]⟩, none, none⟩, ⟨⟨[6], [1]⟩, none, some ⟨[0, 0], .add⟩⟩] : Heap Int) :=
  ⟨[.new [3] [1], .add 0 0], by decide⟩

/-! ## backward touches ancestors only (C36) -/

/-- C36: `backward` changes no data and no history; the gradient of a tensor that is no ancestor of the loss stays
the very same; every ancestor has a gradient afterwards. -/
theorem C36_backward (h h' : Heap T) (l : Nat) (hr : Reachable h) (e : backward h l = .ok h') (t : Nat) (ht : t < h.length) :
    dataOf h' t = dataOf h t ∧ historyOf h' t = historyOf h t ∧
    (¬ Ancestor h t l → h'[t]? = h[t]? ∧ gradOf h' t = gradOf h t) ∧
    (Ancestor h t l → ∃ g, gradOf h' t = some g) := by
  obtain ⟨us, ps, h1, h2, _, h4⟩ := backward_updates hr.good e
  have hf := applyUpdates_frame h1
  obtain ⟨f1, f2⟩ := frame_data hf ht
  refine ⟨f1, f2, fun hna => ?_, fun ha => ?_⟩
  · have h5 : h'[t]? = h[t]? := by
      refine applyUpdates_other (fun u hu hut => ?_) ht h1
      have : u.1 ∈ ps.map Prod.fst := by rw [← h2]; exact List.mem_map_of_mem hu
      obtain ⟨⟨s, p⟩, hx, hx'⟩ := List.mem_map.1 this
      simp at hx'
      rw [hut] at hx'
      subst hx'
      exact hna ((h4 s p).1 hx).ancestor
    exact ⟨h5, gradOf_congr hr.good hf (List.getElem?_eq_getElem ht) (by rw [h5, List.getElem?_eq_getElem ht])⟩
  · obtain ⟨p, hp⟩ := ha.path
    have hmem : t ∈ us.map Prod.fst := by rw [h2]; exact List.mem_map_of_mem ((h4 t p).2 hp)
    obtain ⟨u, hu, hut⟩ := List.mem_map.1 hmem
    have hacc := applyUpdates_grad (t := t) hr.good ht h1
    have hne : gradContribs us t ≠ [] := by
      have : u.2 ∈ gradContribs us t := List.mem_map_of_mem (List.mem_filter.2 ⟨hu, by simp [hut]⟩)
      exact List.ne_nil_of_mem this
    exact Option.ne_none_iff_exists'.1 (gradAccum_isSome (.inr hne) hacc)

/-- C36, test: the gradient of the bystander stays absent, the ancestors get one. -/
example : ∃ h h' : Heap Int, runOps [] [.new [1, 2] [2], .new [3] [1], .add 0 0, .sum 2] = .ok h ∧ backward h 4 = .ok h' ∧
    gradOf h' 0 = some ⟨[2, 2], [2]⟩ ∧ gradOf h' 1 = none ∧ gradOf h' 2 = some ⟨[1, 1], [2]⟩ := ⟨_, _, rfl, rfl, rfl, rfl, rfl⟩

/-! ## accumulation (C37) -/

/-- C37: `zero_grad` removes the gradient of the tensor and changes nothing else. -/
theorem C37_zero_grad (h h' : Heap T) (t : Nat) (hr : Reachable h) (e : zeroGrad h t = .ok h') :
    gradOf h' t = none ∧ ∀ s, s ≠ t → h'[s]? = h[s]? ∧ gradOf h' s = gradOf h s := by
  obtain ⟨n, hn, rfl⟩ := zeroGrad_inv e
  have hlt := getElem?_lt hn
  refine ⟨gradOf_none (List.getElem?_set_self hlt) rfl, fun s hs => ?_⟩
  have h1 : (h.set t { n with grad := none })[s]? = h[s]? := List.getElem?_set_ne (Ne.symm hs)
  refine ⟨h1, ?_⟩
  cases hsn : h[s]? with
  | none => simp [gradOf, h1, hsn]
  | some m => exact gradOf_congr hr.good (Frame.set hn _) hsn (by rw [h1, hsn])

/-- C37: what a loss contributes to a tensor depends on data and history only, not on the gradients present: started
with no gradient, any two states of the same graph give the same gradient. -/
theorem C37_state_independent (h h1 h2 k1 k2 : Heap T) (ops : List (Op T)) (l t : Nat) (hr : Reachable h) (hl : l < h.length)
    (ht : t < h.length) (e1 : runOps h ops = .ok h1) (g0 : gradOf h t = none) (g1 : gradOf h1 t = none)
    (b0 : backward h l = .ok k1) (b1 : backward h1 l = .ok k2) : gradOf k2 t = gradOf k1 t := by
  obtain ⟨hf, hg1⟩ := runOps_frame hr.good e1
  have hn := List.getElem?_eq_getElem hl
  obtain ⟨d, us, _, hd, u1, a1⟩ := backward_inv_frame (Frame.refl h) hr.good hr.good hn b0
  obtain ⟨d', us', _, hd', u2, a2⟩ := backward_inv_frame hf hr.good hg1 hn b1
  rw [hd] at hd'
  cases hd'
  rw [u1] at u2
  cases u2
  have c1 := applyUpdates_grad hr.good ht a1
  have c2 := applyUpdates_grad hg1 (ht.trans_le hf.len) a2
  rw [g0] at c1
  rw [g1] at c2
  rw [c1] at c2
  exact (Except.ok.inj c2).symm

end

section
variable [AddCommMonoid T] [One T] [Mul T] [Sub T] [Neg T] [LT T] [DecidableLT T] [LE T] [DecidableLE T] [RealFn T]

/-- C37: `backward` adds. Let `g` be the gradient (if any) the loss `l` gives `t` when started without one. Then in every later
state of the graph, whatever happened in between, `backward` on `l` adds `g` to the gradient of `t` - provided the gradient
present, if any, has the shape of `t`. -/
theorem C37_accumulates (h h1 k1 k2 : Heap T) (ops : List (Op T)) (l t : Nat) (v : Raw T) (hr : Reachable h)
    (ht : dataOf h t = some v) (e1 : runOps h ops = .ok h1) (g0 : gradOf h t = none) (b0 : backward h l = .ok k1)
    (hp : ∀ p, gradOf h1 t = some p → p.shape = v.shape ∧ WF p) (b1 : backward h1 l = .ok k2) :
    gradOf k2 t = addGrad (gradOf h1 t) (gradOf k1 t) ∧ ∀ g, gradOf k2 t = some g → g.shape = v.shape ∧ WF g := by
  obtain ⟨hf, hg1⟩ := runOps_frame hr.good e1
  simp only [dataOf, Option.map_eq_some_iff] at ht
  obtain ⟨n, hn, rfl⟩ := ht
  obtain ⟨ln, d, us, hln, _, hd, u1, a1⟩ := backward_inv hr.good b0
  obtain ⟨d', us', _, hd', u2, a2⟩ := backward_inv_frame hf hr.good hg1 hln b1
  rw [hd] at hd'
  cases hd'
  rw [u1] at u2
  cases u2
  have hlt := getElem?_lt hn
  have c1 := applyUpdates_grad hr.good hlt a1
  have c2 := applyUpdates_grad hg1 (hlt.trans_le hf.len) a2
  rw [g0] at c1
  have hshape := gradContribs_shape u1 hn
  refine ⟨?_, gradAccum_fits hshape hp c2⟩
  cases hgr : gradOf h1 t with
  | none =>
    rw [hgr] at c2
    rw [c1] at c2
    rw [← Except.ok.inj c2]
    rfl
  | some p =>
    rw [hgr] at c2
    obtain ⟨hps, hpw⟩ := hp p hgr
    cases hc : gradContribs us t with
    | nil =>
      rw [hc] at c1 c2
      have c1 := Except.ok.inj c1
      have c2 := Except.ok.inj c2
      rw [← c1, ← c2]
      rfl
    | cons c cs =>
      rw [hc] at c1 c2 hshape
      obtain ⟨hc1, hc2⟩ := hshape c (by simp)
      rw [gradAccum_cons] at c1
      have r1 := gradAccum_same (s := n.val.shape) (fun c hc => hshape c (by simp [hc])) hc1 hc2 c1
      have r2 := gradAccum_same (s := n.val.shape) hshape hps hpw c2
      have hlen : ∀ x ∈ cs.map (·.array), x.length = n.val.shape.prod := by
        intro x hx
        obtain ⟨c', hc', rfl⟩ := List.mem_map.1 hx
        obtain ⟨h5, h6⟩ := hshape c' (by simp [hc'])
        rw [← h5]; exact h6
      have hcl : c.array.length = n.val.shape.prod := by rw [← hc1]; exact hc2
      have hpl : p.array.length = n.val.shape.prod := by rw [← hps]; exact hpw
      have := foldl_vadd (cs.map (·.array)) p.array c.array hpl hcl hlen
      simp only [List.foldl_map] at this
      rw [r1, r2, List.foldl_cons, this, addGrad, hps]

/-- C37: a sequence of `backward` calls, on the same or different losses, leaves the sum of the individual gradients (those each
loss gives when started without a gradient). -/
theorem C37_losses (h : Heap T) (t : Nat) (hr : Reachable h) (ht : t < h.length) (g0 : gradOf h t = none)
    (ls : List Nat) (ks : List (Heap T)) (hk : List.Forall₂ (fun l k => backward h l = .ok k) ls ks)
    (h' : Heap T) (e : runOps h (ls.map Op.backward) = .ok h') :
    gradOf h' t = ks.foldl (fun g k => addGrad g (gradOf k t)) none := by
  have hdt : dataOf h t = some h[t].val := by simp [dataOf, ht]
  suffices H : ∀ (ls : List Nat) (ks : List (Heap T)) (ops : List (Op T)) (h1 h' : Heap T), runOps h ops = .ok h1 →
      (∀ p, gradOf h1 t = some p → p.shape = h[t].val.shape ∧ WF p) →
      List.Forall₂ (fun l k => backward h l = .ok k) ls ks → runOps h1 (ls.map Op.backward) = .ok h' →
      gradOf h' t = ks.foldl (fun g k => addGrad g (gradOf k t)) (gradOf h1 t) by
    have := H ls ks [] h h' rfl (by rw [g0]; simp) hk e
    rwa [g0] at this
  intro ls
  induction ls with
  | nil => intro ks ops h1 h' _ _ hk e; cases hk; cases e; rfl
  | cons l ls ih =>
    intro ks ops h1 h' e1 hp hk e
    cases hk with
    | cons hb hk =>
      rename_i k ks
      rw [List.map_cons, runOps_cons, R.bind_eq_ok] at e
      obtain ⟨h2, b1, e2⟩ := e
      obtain ⟨r1, r2⟩ := C37_accumulates h h1 k h2 ops l t _ hr hdt e1 g0 hb hp b1
      have e3 : runOps h (ops ++ [.backward l]) = .ok h2 := by rw [runOps_append, e1, R.bind_ok, runOps_cons, b1]; rfl
      rw [ih ks _ h2 h' e3 r2 hk e2, List.foldl_cons, r1]

/-- C37: running `backward` twice doubles the gradient. -/
theorem C37_twice (h k1 k2 : Heap T) (l t : Nat) (g : Raw T) (hr : Reachable h) (ht : t < h.length)
    (g0 : gradOf h t = none) (b0 : backward h l = .ok k1) (hg : gradOf k1 t = some g) (b1 : backward k1 l = .ok k2) :
    gradOf k2 t = some ⟨List.zipWith (· + ·) g.array g.array, g.shape⟩ := by
  have := C37_losses h t hr ht g0 [l, l] [k1, k1] (.cons b0 (.cons b0 .nil)) k2 (by
    simp only [List.map_cons, List.map_nil, runOps_cons, Op.run, b0, R.bind_ok, b1]; rfl)
  rw [this]
  simp [hg, addGrad]

/-- C37: once every ancestor's gradient is absent or of the ancestor's shape, `backward` on a loss on which it succeeded before
succeeds again. -/
theorem C37_again (h h1 k1 : Heap T) (ops : List (Op T)) (l : Nat) (hr : Reachable h) (e1 : runOps h ops = .ok h1)
    (b0 : backward h l = .ok k1)
    (hfit : ∀ t v, Ancestor h t l → dataOf h t = some v → Pos v.shape ∧
      ∀ p, gradOf h1 t = some p → p.shape = v.shape ∧ WF p) : ∃ k2, backward h1 l = .ok k2 := by
  obtain ⟨hf, hg1⟩ := runOps_frame hr.good e1
  obtain ⟨n, d, us, hln, hlen, hd, u1, a1⟩ := backward_inv hr.good b0
  obtain ⟨g, hln1⟩ := hf.get hln
  have hll := getElem?_lt hln
  have hin : ∀ i ∈ d.inputs, i < h.length := fun i hi => ((hr.good l n hln).older d hd i hi).trans hll
  have hin1 : ∀ i ∈ d.inputs, i < h1.length := fun i hi => (hin i hi).trans_le hf.len
  have u2 : jvpUpdates (h1.length + 1) h1 d [Raw.scalar 1] = .ok us := by
    rw [jvpUpdates_frame hf hr.good hin, ← u1]
    exact jvpUpdates_fuel hr.good _ _ fun i hi => by have := hin i hi; have := hf.len; omega
  have hanc : ∀ u ∈ us, Ancestor h u.1 l := by
    intro u hu
    have h2 := jvpUpdates_paths hr.good hln hd u1
    have : u.1 ∈ (pathsOf (h.length + 1) h d).map Prod.fst := by rw [← h2]; exact List.mem_map_of_mem hu
    obtain ⟨⟨s, p⟩, hx, hx'⟩ := List.mem_map.1 this
    have hp := (mem_pathsOf hr.good hln hd (by omega)).1 hx
    rw [← hx']
    exact hp.ancestor
  obtain ⟨k2, e2⟩ := applyUpdates_ok (us := us) hg1 (by
    intro u hu
    obtain ⟨m, hm, h3, h4⟩ := jvpUpdates_shape u1 u hu
    obtain ⟨g', hm'⟩ := hf.get hm
    exact ⟨_, hm', h3, h4, (hfit u.1 m.val (hanc u hu) (by simp [dataOf, hm])).1⟩) (by
    intro u hu
    refine GradFits.takes fun m p hm hp => ?_
    obtain ⟨m0, hm0, h3, h4⟩ := jvpUpdates_shape u1 u hu
    obtain ⟨g', hm'⟩ := hf.get hm0
    rw [hm'] at hm
    cases hm
    exact (hfit u.1 m0.val (hanc u hu) (by simp [dataOf, hm0])).2 p hp)
  refine ⟨k2, ?_⟩
  simp only [backward, Heap.node_eq_ok.2 hln1, R.bind_ok, hd, unwrapO, hlen]
  exact (computeJvp_ok (Frame.refl h1) hin1 hg1).2 ⟨us, u2, e2⟩

end

/-- C37, test: two losses, then one of them again, then zero and start afresh. -/
example : ∃ h k : Heap Int, runOps [] [.new [1, 2] [2], .add 0 0, .sum 1, .sum 0] = .ok h ∧ gradOf h 0 = none ∧
    runOps h [.backward 3, .backward 5, .backward 3] = .ok k ∧ gradOf k 0 = some ⟨[5, 5], [2]⟩ ∧
    ∃ k2, runOps k [.zeroGrad 0, .backward 5] = .ok k2 ∧ gradOf k2 0 = some ⟨[1, 1], [2]⟩ :=
  ⟨_, _, rfl, rfl, rfl, rfl, _, rfl, rfl⟩

end RL
