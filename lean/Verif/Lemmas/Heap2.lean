import Verif.Model.GradLock
import Verif.Lemmas.Loops
import Verif.Lemmas.Bmm

/-!
# The remaining operations: products with views, clones, gradients, backward
-/

namespace RL

open Spec

variable {T : Type}

theorem foldlM_congr_mem {σ α : Type _} {f g : σ → α → R σ} {l : List α} (h : ∀ a ∈ l, ∀ s, f s a = g s a) (s : σ) :
    l.foldlM f s = l.foldlM g s := by
  induction l generalizing s with
  | nil => rfl
  | cons a l ih =>
    rw [List.foldlM_cons, List.foldlM_cons, h a (by simp)]
    congr 1
    funext s'
    exact ih (fun b hb => h b (by simp [hb])) s'

theorem mapM_congr_mem {α β : Type _} {f g : α → R β} {l : List α} (h : ∀ a ∈ l, f a = g a) : l.mapM f = l.mapM g := by
  induction l with
  | nil => rfl
  | cons a l ih => rw [List.mapM_cons, List.mapM_cons, h a (by simp), ih fun b hb => h b (by simp [hb])]

/-- What a successful `to_tensor` of a view (of any kind, also a reshaped one) tells. -/
theorem toTensor_view_inv {v : View T} {t : Raw T} (h : (TL.view v).toTensor = .ok t) :
    Pos v.shape ∧ t.shape = v.shape ∧ WF t ∧
      ∀ idx, InRange v.shape idx → ∃ x, unwrapR (v.get idx) = .ok x ∧ t.array[rowMajor v.shape idx]? = some x := by
  simp only [TL.toTensor, R.bind_eq_ok] at h
  obtain ⟨arr, h1, h2⟩ := h
  obtain ⟨hw, rfl⟩ := Raw.new_ok_iff.1 h2
  have hp : Pos v.shape := forIndices_ok_pos h1
  have h3 : (allIndices v.shape).mapM (fun idx => unwrapR (v.get idx)) = .ok arr := by
    rw [← forIndices_append hp]
    exact h1
  obtain ⟨h4, h5⟩ := mapM_allIndices h3
  exact ⟨hp, rfl, h4, h5⟩

/-- A matrix product only reads the in-range elements of its right operand. -/
theorem bmmRaw_congr_right [Zero T] [Add T] [Mul T] (l : TL T) {r r' : TL T} (hs : r.shape = r'.shape)
    (hg : ∀ idx, InRange r.shape idx → unwrapR (r.get idx) = unwrapR (r'.get idx)) : bmmRaw l r = bmmRaw l r' := by
  have hc : bmmChecks l r = bmmChecks l r' := by simp only [bmmChecks, hs]
  have hsh : bmmShape l r = bmmShape l r' := by simp only [bmmShape, hs]
  unfold bmmRaw
  rw [hc, hsh, hs]
  cases hck : bmmChecks l r' with
  | error e => simp only [R.bind_error]
  | ok u =>
    simp only [R.bind_ok]
    simp only [bmmChecks, R.bind_eq_ok] at hck
    obtain ⟨_, _, _, hlen, _⟩ := hck
    rw [assertR_eq_ok] at hlen
    simp at hlen
    obtain ⟨k, n, hkn⟩ := List.length_eq_two.1 hlen
    cases hns : bmmShape l r' with
    | error e => simp only [R.bind_error]
    | ok ns =>
      simp only [R.bind_ok]
      have hn2 : idxR ns 2 = .ok n := by
        simp only [bmmShape, hkn, R.bind_eq_ok] at hns
        obtain ⟨n', e1, l0, e2, e3⟩ := hns
        rw [idxR_eq_ok] at e1
        simp at e1
        subst e1
        split at e3
        · rw [R.pure_eq_ok] at e3; subst e3; rfl
        · simp only [R.bind_eq_ok, R.pure_eq_ok] at e3
          obtain ⟨_, _, e3⟩ := e3
          subst e3; rfl
      have hk0 : idxR r'.shape 0 = .ok k := by rw [hkn]; rfl
      rw [hn2, hk0]
      congr 1; funext nb; congr 1; funext nrow
      simp only [R.bind_ok]
      congr 1
      refine foldlM_congr_mem (fun p _ acc => foldlM_congr_mem (fun i _ acc => ?_) acc) []
      congr 1
      refine mapM_congr_mem fun j hj => ?_
      rw [List.mem_range] at hj
      unfold bmmEntry
      refine foldlM_congr_mem (fun kk hk val => ?_) 0
      rw [List.mem_range] at hk
      have := hg [kk, j] (by rw [hs, hkn]; exact inRange2.2 ⟨hk, hj⟩)
      rw [hkn]
      simp only [List.set_cons_succ, List.set_cons_zero, this]

theorem bmmRaw_toTensor [Zero T] [Add T] [Mul T] (l : TL T) {v : View T} {t : Raw T} (h : (TL.view v).toTensor = .ok t) :
    bmmRaw l (.raw t) = bmmRaw l (.view v) := by
  obtain ⟨hp, hs, hw, hv⟩ := toTensor_view_inv h
  refine bmmRaw_congr_right l hs fun idx hi => ?_
  have hi' : InRange t.shape idx := hi
  obtain ⟨x, h1, h2⟩ := hv idx (hs ▸ hi')
  obtain ⟨y, h3, h4⟩ := TL.get_ok (x := .raw t) hw hi'
  rw [h4]
  simp only [elem?, Raw.elem?, hs] at h3
  rw [h2] at h3
  cases h3
  exact h1.symm

section
variable [Zero T] [One T] [Add T] [Mul T] [Sub T] [Neg T] [LT T] [DecidableLT T] [LE T] [DecidableLE T] [RealFn T]

theorem bmmViewT_allocs {h h' : Heap T} {l id : Nat} {v : VExpr} (e : bmmViewT h l v = .ok (h', id)) :
    Allocs h h' := by
  simp only [bmmViewT, R.bind_eq_ok, R.pure_eq_ok, Heap.node_eq_ok] at e
  obtain ⟨ln, hl, w, hw, val, hv, rv, hr, e⟩ := e
  cases e
  refine (Allocs.leaf h rv).trans (Allocs.node ?_)
  have hl' : (h.leaf rv).1[l]? = some ln := by
    simp [Heap.leaf, Heap.alloc, List.getElem?_append_left (getElem?_lt hl), hl]
  have hr' : (h.leaf rv).1[(h.leaf rv).2]? = some (leafNode rv) := by simp [Heap.leaf, Heap.alloc]
  refine nodeOk_binary hl' hr' ?_
  simp only [fwd]
  exact (bmmRaw_toTensor _ hr).trans hv

theorem deepCloneT_allocs {h h' : Heap T} {t id : Nat} (e : deepCloneT h t = .ok (h', id)) : Allocs h h' := by
  simp only [deepCloneT, R.bind_eq_ok, R.pure_eq_ok, Heap.node_eq_ok, Heap.alloc] at e
  obtain ⟨n, hn, e⟩ := e
  cases e
  exact Allocs.node ⟨by simp, by simp, by simp⟩

theorem rawCloneT_inv {h h' : Heap T} {t id : Nat} (e : rawCloneT h t = .ok (h', id)) :
    ∃ n, h[t]? = some n ∧ h' = h ++ [n] ∧ id = h.length := by
  simp only [rawCloneT, R.bind_eq_ok, R.pure_eq_ok, Heap.node_eq_ok, Heap.alloc] at e
  obtain ⟨n, hn, e⟩ := e
  cases e
  exact ⟨n, hn, rfl, rfl⟩

theorem rawCloneT_allocs {h h' : Heap T} {t id : Nat} (e : rawCloneT h t = .ok (h', id)) : Allocs h h' := by
  obtain ⟨n, hn, rfl, -⟩ := rawCloneT_inv e
  refine ⟨⟨_, rfl⟩, fun hg => hg.append ?_⟩
  have := hg t n hn
  exact ⟨this.grad, fun d hd j hj => (this.older d hd j hj).trans (getElem?_lt hn), this.explained⟩

/-! ### gradients -/

/-- inversion of `updateGrad` -/
theorem updateGrad_inv {h h' : Heap T} {t g : Nat} (e : updateGrad h t g = .ok h') :
    ∃ n, h[t]? = some n ∧
      ((n.grad = none ∧ h' = h.set t { n with grad := some g }) ∨
       ∃ o on gn v, n.grad = some o ∧ h[o]? = some on ∧ h[g]? = some gn ∧
        addRaw (.raw on.val) (.raw gn.val) = .ok v ∧
        h' = (h ++ [(⟨v, none, some ⟨[o, g], .add⟩⟩ : Node T)]).set t { n with grad := some h.length }) := by
  unfold updateGrad at e
  rw [R.bind_eq_ok] at e
  obtain ⟨n, hn, e⟩ := e
  rw [Heap.node_eq_ok] at hn
  refine ⟨n, hn, ?_⟩
  cases hgr : n.grad with
  | none =>
    rw [hgr] at e
    left
    simp at e
    exact ⟨rfl, e.symm⟩
  | some o =>
    rw [hgr] at e
    right
    simp only [R.bind_eq_ok] at e
    obtain ⟨⟨h1, id⟩, e1, e2⟩ := e
    obtain ⟨on, gn, v, ho, hg, hv, rfl, rfl⟩ := addT_inv e1
    simp at e2
    exact ⟨o, on, gn, v, rfl, ho, hg, hv, e2.symm⟩

theorem updateGrad_frame {h h' : Heap T} {t g : Nat} (e : updateGrad h t g = .ok h') : Frame h h' := by
  obtain ⟨n, hn, ⟨_, rfl⟩ | ⟨o, on, gn, v, _, ho, hg, hv, rfl⟩⟩ := updateGrad_inv e
  · exact Frame.set hn _
  · have hn' : (h ++ [(⟨v, none, some ⟨[o, g], .add⟩⟩ : Node T)])[t]? = some n := by
      rw [List.getElem?_append_left (getElem?_lt hn), hn]
    exact (Frame.append _ _).trans (Frame.set hn' _)

theorem updateGrad_good {h h' : Heap T} {t g : Nat} (e : updateGrad h t g = .ok h') (hgl : g < h.length) (hg : h.Good) :
    h'.Good := by
  obtain ⟨n, hn, ⟨_, rfl⟩ | ⟨o, on, gn, v, _, ho, hgn, hv, rfl⟩⟩ := updateGrad_inv e
  · exact hg.set hn (by simpa using hgl)
  · have hn' : (h ++ [(⟨v, none, some ⟨[o, g], .add⟩⟩ : Node T)])[t]? = some n := by
      rw [List.getElem?_append_left (getElem?_lt hn), hn]
    exact (hg.append (nodeOk_binary (k := .add) ho hgn hv)).set hn' (by simp)

theorem zeroGrad_inv {h h' : Heap T} {t : Nat} (e : zeroGrad h t = .ok h') :
    ∃ n, h[t]? = some n ∧ h' = h.set t { n with grad := none } := by
  simp only [zeroGrad, R.bind_eq_ok, R.pure_eq_ok, Heap.node_eq_ok] at e
  obtain ⟨n, hn, e⟩ := e
  exact ⟨n, hn, e.symm⟩

/-! ### the updates a backward pass performs -/

/-- Perform one update: a new tensor holding the contribution, then `update_grad`. -/
def applyUpdate (h : Heap T) (u : Nat × Raw T) : R (Heap T) := updateGrad (h.leaf u.2).1 u.1 h.length

/-- Perform updates in order. -/
def applyUpdates (h : Heap T) (us : List (Nat × Raw T)) : R (Heap T) := us.foldlM applyUpdate h

theorem applyUpdates_nil (h : Heap T) : applyUpdates h [] = .ok h := rfl

theorem applyUpdates_cons (h : Heap T) (u : Nat × Raw T) (us : List (Nat × Raw T)) :
    applyUpdates h (u :: us) = (do let h ← applyUpdate h u; applyUpdates h us) := by
  simp [applyUpdates]

theorem applyUpdates_append (h : Heap T) (us vs : List (Nat × Raw T)) :
    applyUpdates h (us ++ vs) = (do let h ← applyUpdates h us; applyUpdates h vs) := by
  simp [applyUpdates]

theorem applyUpdate_frame {h h' : Heap T} {u : Nat × Raw T} (e : applyUpdate h u = .ok h') : Frame h h' :=
  (Frame.append h _).trans (updateGrad_frame e)

theorem applyUpdate_good {h h' : Heap T} {u : Nat × Raw T} (e : applyUpdate h u = .ok h') (hg : h.Good) : h'.Good :=
  updateGrad_good e (by simp [Heap.leaf, Heap.alloc]) ((Allocs.leaf h u.2).2 hg)

theorem applyUpdates_frame {h h' : Heap T} {us : List (Nat × Raw T)} (e : applyUpdates h us = .ok h') : Frame h h' := by
  induction us generalizing h with
  | nil => cases e; exact Frame.refl _
  | cons u us ih =>
    rw [applyUpdates_cons, R.bind_eq_ok] at e
    obtain ⟨h1, e1, e2⟩ := e
    exact (applyUpdate_frame e1).trans (ih e2)

theorem applyUpdates_good {h h' : Heap T} {us : List (Nat × Raw T)} (e : applyUpdates h us = .ok h') (hg : h.Good) :
    h'.Good := by
  induction us generalizing h with
  | nil => cases e; exact hg
  | cons u us ih =>
    rw [applyUpdates_cons, R.bind_eq_ok] at e
    obtain ⟨h1, e1, e2⟩ := e
    exact ih e2 (applyUpdate_good e1 hg)

/-- Running `compute_jvp` from any later state of the same graph performs these updates and nothing else. -/
theorem computeJvp_ok {h0 : Heap T} : ∀ {fuel : Nat} {h h' : Heap T} {d : Deriv} {gs : List (Raw T)}, Frame h0 h →
    (∀ i ∈ d.inputs, i < h0.length) → h0.Good →
    (computeJvp fuel h d gs = .ok h' ↔ ∃ us, jvpUpdates fuel h0 d gs = .ok us ∧ applyUpdates h us = .ok h') := by
  intro fuel
  induction fuel with
  | zero => intro h h' d gs _ _ _; simp [computeJvp, jvpUpdates, R.panic]
  | succ fuel ih =>
    intro h h' d gs hf hd hgood
    have hvals : ∃ vs, h0.vals d.inputs = .ok vs := by
      have : ∀ l : List Nat, (∀ i ∈ l, i < h0.length) → ∃ vs, h0.vals l = .ok vs := by
        intro l
        induction l with
        | nil => intro _; exact ⟨[], rfl⟩
        | cons i l ihl =>
          intro hl
          obtain ⟨vs, hvs⟩ := ihl fun j hj => hl j (by simp [hj])
          refine ⟨(h0[i]'(hl i (by simp))).val :: vs, ?_⟩
          rw [Heap.vals_cons, Heap.node, idxR_ok (hl i (by simp))]
          simp [hvs]
      exact this _ hd
    obtain ⟨vs, hvs⟩ := hvals
    have hvs' := hf.vals hvs
    have e1 : computeJvp (fuel + 1) h d gs = (do
        let selfGrads ← applyJvp d.kind vs gs
        (selfGrads.zip d.inputs).foldlM (init := h) (fun h (grad, input) => do
          let n ← h.node input
          assertR (grad.array.length == n.val.array.length)
          let shapedGrad ← Raw.new grad.array n.val.shape
          let (h, g) := h.leaf shapedGrad
          let h ← updateGrad h input g
          match n.gradFn with
          | some d' => computeJvp fuel h d' [grad]
          | none => return h)) := by
      have hvs'' : d.inputs.mapM (fun i => do return (← h.node i).val) = .ok vs := hvs'
      conv_lhs => unfold computeJvp
      rw [hvs'', R.bind_ok]
      rfl
    have e2 : jvpUpdates (fuel + 1) h0 d gs = (do
        let selfGrads ← applyJvp d.kind vs gs
        let us ← (selfGrads.zip d.inputs).mapM (fun (grad, input) => do
          let n ← h0.node input
          assertR (grad.array.length == n.val.array.length)
          let shapedGrad ← Raw.new grad.array n.val.shape
          let rest ← match n.gradFn with
            | some d' => jvpUpdates fuel h0 d' [grad]
            | none => pure []
          return (input, shapedGrad) :: rest)
        return us.flatten) := by
      conv_lhs => unfold jvpUpdates
      rw [hvs, R.bind_ok]
      rfl
    rw [e1, e2]
    cases hsg : applyJvp d.kind vs gs with
    | error e => simp
    | ok sg =>
      simp only [R.bind_ok]
      have hmem : ∀ p ∈ sg.zip d.inputs, p.2 < h0.length := fun p hp => hd _ (List.of_mem_zip hp).2
      clear e1 e2 hsg
      generalize sg.zip d.inputs = l at hmem ⊢
      induction l generalizing h with
      | nil =>
        simp [applyUpdates_nil]
      | cons p l ihl =>
        obtain ⟨grad, input⟩ := p
        have hin : input < h0.length := hmem (grad, input) (by simp)
        have hn0 : h0[input]? = some h0[input] := List.getElem?_eq_getElem hin
        obtain ⟨gr, hn⟩ := hf.get hn0
        rw [List.foldlM_cons, List.mapM_cons]
        have hnode0 : h0.node input = .ok h0[input] := Heap.node_eq_ok.2 hn0
        have hnode : h.node input = .ok { h0[input] with grad := gr } := Heap.node_eq_ok.2 hn
        simp only [hnode0, hnode, R.bind_ok]
        cases hA : assertR (grad.array.length == h0[input].val.array.length) with
        | error e => simp
        | ok u =>
          simp only [R.bind_ok]
          cases hS : Raw.new grad.array h0[input].val.shape with
          | error e => simp
          | ok sgr =>
            simp only [R.bind_ok]
            have hrest : ∀ (hh : Heap T), Frame h0 hh → ∀ h2, ((do
                let h ← applyUpdate hh (input, sgr)
                match h0[input].gradFn with
                | some d' => computeJvp fuel h d' [grad]
                | none => pure h) = .ok h2 ↔ ∃ rest, (match h0[input].gradFn with
                  | some d' => jvpUpdates fuel h0 d' [grad]
                  | none => pure []) = .ok rest ∧ applyUpdates hh ((input, sgr) :: rest) = .ok h2) := by
              intro hh hfh h2
              cases hgf : h0[input].gradFn with
              | none => simp [applyUpdates_cons, applyUpdates_nil, R.bind_eq_ok]
              | some d' =>
                simp only [applyUpdates_cons, R.bind_eq_ok]
                have hd' : ∀ i ∈ d'.inputs, i < h0.length := fun i hi =>
                  ((hgood input _ hn0).older d' hgf i hi).trans hin
                constructor
                · rintro ⟨h1, e1, e2⟩
                  obtain ⟨us, e3, e4⟩ := (ih (hfh.trans (applyUpdate_frame e1)) hd' hgood).1 e2
                  exact ⟨us, e3, h1, e1, e4⟩
                · rintro ⟨us, e3, h1, e1, e4⟩
                  exact ⟨h1, e1, (ih (hfh.trans (applyUpdate_frame e1)) hd' hgood).2 ⟨us, e3, e4⟩⟩
            have hrw : ∀ (x : Heap T), (do
                let h ← updateGrad (h.leaf sgr).1 input (h.leaf sgr).2
                match h0[input].gradFn with
                | some d' => computeJvp fuel h d' [grad]
                | none => pure h) = .ok x ↔ ∃ rest, (match h0[input].gradFn with
                  | some d' => jvpUpdates fuel h0 d' [grad]
                  | none => pure []) = .ok rest ∧ applyUpdates h ((input, sgr) :: rest) = .ok x := hrest h hf
            rw [R.bind_eq_ok]
            constructor
            · rintro ⟨h1, e1, e2⟩
              obtain ⟨rest, e3, e4⟩ := (hrw h1).1 e1
              have hf1 : Frame h0 h1 := hf.trans (applyUpdates_frame e4)
              obtain ⟨us, e5, e6⟩ := (ihl hf1 (hf1.vals hvs) fun p hp => hmem p (by simp [hp])).1 e2
              obtain ⟨uss, e7, e8⟩ := R.bind_eq_ok.1 e5
              rw [R.pure_eq_ok] at e8
              subst e8
              refine ⟨((input, sgr) :: rest) ++ uss.flatten, ?_, ?_⟩
              · rw [R.bind_eq_ok]
                refine ⟨((input, sgr) :: rest) :: uss, ?_, rfl⟩
                rw [R.bind_eq_ok]
                refine ⟨(input, sgr) :: rest, ?_, ?_⟩
                · cases hgf : h0[input].gradFn <;> rw [hgf] at e3 <;> simp only [e3] <;> simp
                · simp only [e7]; rfl
              · rw [applyUpdates_append, R.bind_eq_ok]
                exact ⟨h1, e4, e6⟩
            · rintro ⟨us, e1, e2⟩
              obtain ⟨uss, e3, e4⟩ := R.bind_eq_ok.1 e1
              obtain ⟨u0, e5, e6⟩ := R.bind_eq_ok.1 e3
              obtain ⟨uss', e7, e8⟩ := R.bind_eq_ok.1 e6
              rw [R.pure_eq_ok] at e4 e8
              subst e8
              subst e4
              have : ∃ rest, (match h0[input].gradFn with
                  | some d' => jvpUpdates fuel h0 d' [grad]
                  | none => pure []) = .ok rest ∧ u0 = (input, sgr) :: rest := by
                cases hgf : h0[input].gradFn <;> rw [hgf] at e5 <;>
                  simp only [R.bind_eq_ok, R.pure_eq_ok] at e5 ⊢
                · obtain ⟨r, h1, h2⟩ := e5
                  exact ⟨r, h1, h2.symm⟩
                · obtain ⟨r, h1, h2⟩ := e5
                  exact ⟨r, h1, h2.symm⟩
              obtain ⟨rest, e9, rfl⟩ := this
              rw [List.flatten_cons, applyUpdates_append, R.bind_eq_ok] at e2
              obtain ⟨h1, e10, e11⟩ := e2
              have hf1 : Frame h0 h1 := hf.trans (applyUpdates_frame e10)
              refine ⟨h1, (hrw h1).2 ⟨rest, e9, e10⟩, ?_⟩
              refine (ihl hf1 (hf1.vals hvs) fun p hp => hmem p (by simp [hp])).2 ⟨uss'.flatten, ?_, e11⟩
              rw [R.bind_eq_ok]
              exact ⟨uss', e7, rfl⟩

end

end RL
