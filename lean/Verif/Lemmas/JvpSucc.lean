import Verif.Lemmas.Accum
import Verif.Lemmas.TanhJvp

/-!
# When a backward pass succeeds
-/

namespace RL

open Spec

variable {T : Type}

/-- every upstream gradient of the right size has entries -/
theorem gradOk_row [Zero T] {g : Raw T} {n : Nat} (hs : g.shape = [1, n]) (hw : WF g) :
    GradOk g 1 n (fun r k => g.array.getD (r * n + k) 0) := by
  refine Or.inl ⟨hs, hw, fun r hr k hk => ?_⟩
  have : r * n + k < g.array.length := by
    rw [hw, hs]
    have : r = 0 := by omega
    subst this
    simpa using hk
  simp [this]

theorem gradOk_scalar (c : T) (n : Nat) : GradOk (Raw.scalar c) 1 n (fun _ _ => c) :=
  Or.inr ⟨rfl, rfl, rfl, fun _ => rfl⟩

theorem tanhJvp_succ [Zero T] [One T] [Add T] [Mul T] [Sub T] [RealFn T] {t grad : Raw T} (ht : WF t)
    {g : Nat → Nat → T} (hg : GradOk grad 1 t.array.length g) (hsh : grad.shape = [1, t.array.length] ∨ t.array.length = 1) :
    ∃ s, tanhJvp [t] [grad] = .ok [s] ∧ s.shape = [1, t.array.length] ∧ WF s := by
  obtain ⟨j, hj1, hj2, hj3, hj4⟩ := tanhJacobian_ok ht
  have hjl : j.array.length = t.array.length * t.array.length := by rw [hj3, hj2]; simp
  suffices ∃ s, jvpFromFullJacobians grad j = .ok s ∧ s.shape = [1, t.array.length] ∧ WF s by
    obtain ⟨s, h1, h2⟩ := this
    refine ⟨s, ?_, h2⟩
    have a1 : assertR ([t].length == 1) = .ok () := rfl
    have a2 : assertR ([grad].length == 1) = .ok () := rfl
    have a3 : idxR [t] 0 = .ok t := rfl
    have a4 : idxR [grad] 0 = .ok grad := rfl
    unfold tanhJvp
    simp only [a1, a2, a3, a4, R.bind_ok, hj1, h1]
    rfl
  by_cases h1 : t.array.length = 1
  · have hjd : ∃ x, j = ⟨[x], [1, 1]⟩ := by
      have hjl1 : j.array.length = 1 := by rw [hjl, h1]
      obtain ⟨y, hy⟩ := List.length_eq_one_iff.1 hjl1
      obtain ⟨ja, js⟩ := j
      simp only at hy hj2
      exact ⟨y, by rw [hy, hj2, h1]⟩
    obtain ⟨x, rfl⟩ := hjd
    unfold jvpFromFullJacobians
    rw [if_pos (by simp [Raw.isScalar])]
    have hgc : (grad.shape = [1, 1] ∨ grad.shape = []) ∧ ∃ y, grad.array = [y] := by
      rcases hg with ⟨hs, hw, hv⟩ | ⟨hs, _, hw, hv⟩
      · rw [h1] at hs
        have hl : grad.array.length = 1 := by rw [hw, hs]; rfl
        exact ⟨Or.inl hs, List.length_eq_one_iff.1 hl⟩
      · have hl : grad.array.length = 1 := by rw [hw, hs]; rfl
        exact ⟨Or.inr hs, List.length_eq_one_iff.1 hl⟩
    obtain ⟨hs, y, ha⟩ := hgc
    obtain ⟨ga, gs⟩ := grad
    simp only at hs ha
    subst ha
    rcases hs with rfl | rfl
    · have hmul : mulRaw (⟨[y], [1, 1]⟩ : Raw T) (.raw ⟨[x], [1, 1]⟩) = .ok ⟨[y * x], [1, 1]⟩ := by
        have := elementWiseMul_eq (l := .raw (⟨[y], [1, 1]⟩ : Raw T)) (r := .raw ⟨[x], [1, 1]⟩)
          (by simp [Ok, WF]) (by simp [Ok, WF]) rfl (by simp [Pos])
        rw [elems_raw (by simp [WF]), elems_raw (by simp [WF])] at this
        simpa [mulRaw] using this
      rw [assertR_of (by simp), R.bind_ok, hmul]
      exact ⟨_, rfl, by rw [h1], by simp [WF]⟩
    · have hmul : mulRaw (⟨[y], []⟩ : Raw T) (.raw ⟨[x], [1, 1]⟩) = .ok ⟨[y * x], [1, 1]⟩ := by
        simp [mulRaw, idxR, TL.leftScalarMul, TL.tensor, TL.shape]
      rw [assertR_of (by simp), R.bind_ok, hmul]
      exact ⟨_, rfl, by rw [h1], by simp [WF]⟩
  · have hs : grad.shape = [1, t.array.length] := hsh.resolve_right h1
    have hgm : WF grad := by
      rcases hg with ⟨hs', hw, hv⟩ | ⟨hs', _⟩
      · exact hw
      · rw [hs] at hs'; simp at hs'
    unfold jvpFromFullJacobians
    have hcond : (j.isScalar || j.shape.prod == 1 || grad.isScalar || grad.shape.prod == 1) = false := by
      have e1 : j.isScalar = false := by simp [Raw.isScalar, hj2]
      have e2 : grad.isScalar = false := by simp [Raw.isScalar, hs]
      rw [e1, e2, hj2, hs]
      simp [h1]
    rw [if_neg (by rw [hcond]; simp)]
    rw [bmmRaw2_eq (l := .raw grad) (r := .raw j) hgm hj3 hs hj2]
    exact ⟨_, rfl, rfl, by simp [WF, allIndices_length]⟩

variable [Zero T] [One T] [Add T] [Mul T] [Sub T] [Neg T] [LT T] [DecidableLT T] [LE T] [DecidableLE T] [RealFn T]

theorem unary_length {a v : Raw T} {f : T → T} (ha : WF a) (e : genericUnaryOp (.raw a) f = .ok v) :
    v.array.length = a.array.length ∧ v = ⟨a.array.map f, a.shape⟩ := by
  rw [genericUnaryOp_eq (x := .raw a) ha (.inl ⟨a, rfl⟩), elems_raw ha] at e
  cases e
  simp [TL.shape]

/-- The gradient function of a node succeeds on an upstream gradient of the right size and gives one gradient row of the right
size per input. -/
theorem applyJvp_succ {k : JvpKind} {vs : List (Raw T)} {v g : Raw T} {gf : Nat → Nat → T} (hf : fwd k vs = .ok v)
    (hvs : ∀ x ∈ vs, WF x ∧ Pos x.shape) (hdot : k ≠ .dot) (hbmm : k = .bmm → ∀ a, vs[0]? = some a → a.shape.length = 2)
    (hg : GradOk g 1 v.array.length gf) (hsh : g.shape = [1, v.array.length] ∨ v.array.length = 1 ∧ k ≠ .bmm ∧ k ≠ .abs) :
    ∃ out, applyJvp k vs [g] = .ok out ∧ List.Forall₂ (fun o x => o.shape = [1, x.array.length] ∧ WF o) out vs := by
  have hlen := fwd_arity hf
  have hun : ∀ (a : Raw T) (f f' : T → T), WF a → Pos a.shape → genericUnaryOp (.raw a) f' = .ok v →
      ∃ s, genericUnaryJvp a g f = .ok [s] ∧ s.shape = [1, a.array.length] ∧ WF s := by
    intro a f f' hw hp e
    obtain ⟨hl, -⟩ := unary_length hw e
    rw [hl] at hg
    obtain ⟨s, h1, h2, h3, _⟩ := genericUnaryJvp_ok hw hp hg f
    exact ⟨s, h1, h2, h3⟩
  cases k with
  | add =>
    obtain ⟨a, b, rfl⟩ := List.length_eq_two.1 hlen
    obtain ⟨wa, pa⟩ := hvs a (by simp)
    obtain ⟨wb, pb⟩ := hvs b (by simp)
    obtain ⟨hc, hs, hw, _⟩ := genericBinopRaw_inv (l := .raw a) (r := .raw b) wa wb pa pb hf
    have hl : v.array.length = (bshape a.shape b.shape).prod := by rw [hw, hs]; rfl
    rw [hl] at hg
    obtain ⟨x, y, h1, h2, h3, h4, h5, _⟩ := genericBinopJvp_ok wa wb pa pb hc hg (fun _ _ => 1) (fun _ => 1) (fun _ _ _ _ _ _ => rfl)
    exact ⟨[x, y], h1, .cons ⟨h2, h3⟩ (.cons ⟨h4, h5⟩ .nil)⟩
  | neg =>
    obtain ⟨a, rfl⟩ := List.length_eq_one_iff.1 hlen
    obtain ⟨wa, pa⟩ := hvs a (by simp)
    obtain ⟨s, h1, h2⟩ := hun a (fun _ => -1) _ wa pa hf
    exact ⟨[s], h1, .cons h2 .nil⟩
  | relu =>
    obtain ⟨a, rfl⟩ := List.length_eq_one_iff.1 hlen
    obtain ⟨wa, pa⟩ := hvs a (by simp)
    obtain ⟨s, h1, h2⟩ := hun a reluDeriv _ wa pa hf
    exact ⟨[s], h1, .cons h2 .nil⟩
  | abs =>
    obtain ⟨a, rfl⟩ := List.length_eq_one_iff.1 hlen
    obtain ⟨wa, pa⟩ := hvs a (by simp)
    obtain ⟨s, h1, h2⟩ := hun a absDeriv _ wa pa hf
    have hs : g.shape = [1, v.array.length] := hsh.resolve_right fun h => h.2.2 rfl
    refine ⟨[s], ?_, .cons h2 .nil⟩
    simp [applyJvp, absJvp, idxR, hs, h1]
  | tanh =>
    obtain ⟨a, rfl⟩ := List.length_eq_one_iff.1 hlen
    obtain ⟨wa, pa⟩ := hvs a (by simp)
    obtain ⟨hl, -⟩ := unary_length wa hf
    rw [hl] at hg hsh
    obtain ⟨s, h1, h2⟩ := tanhJvp_succ wa hg (hsh.imp_right (·.1))
    exact ⟨[s], h1, .cons h2 .nil⟩
  | sum =>
    obtain ⟨a, rfl⟩ := List.length_eq_one_iff.1 hlen
    obtain ⟨wa, pa⟩ := hvs a (by simp)
    have hv : v.array.length = 1 := by
      have := (sum_post (.raw a)) v hf
      rw [this.2, this.1]; rfl
    refine ⟨_, rfl, .cons ⟨?_, Raw.newWithFiller_wf _ _⟩ .nil⟩
    rw [Raw.newWithFiller_eq]
    have : g.shape.prod = 1 := by
      rcases hg with ⟨hs, _⟩ | ⟨hs, _⟩ <;> rw [hs]
      · rw [hv]; rfl
      · rfl
    simp only [this]
    rw [wa]
  | bmm =>
    obtain ⟨a, b, rfl⟩ := List.length_eq_two.1 hlen
    obtain ⟨wa, pa⟩ := hvs a (by simp)
    obtain ⟨wb, pb⟩ := hvs b (by simp)
    have h2 := hbmm rfl a rfl
    have hf' : bmmRaw (.raw a) (.raw b) = .ok v := hf
    obtain ⟨m, kk, ha⟩ := List.length_eq_two.1 h2
    obtain ⟨n, hb⟩ : ∃ n, b.shape = [kk, n] := by
      have hc := hf'
      unfold bmmRaw at hc
      rw [R.bind_eq_ok] at hc
      obtain ⟨⟨⟩, hc, -⟩ := hc
      simp only [bmmChecks, R.bind_eq_ok] at hc
      obtain ⟨⟨⟩, c1, ⟨⟩, c2, l, hl, r, hr, c3⟩ := hc
      rw [assertR_eq_ok] at c1 c2 c3
      have hb2 : b.shape.length = 2 := by simpa [TL.shape] using c2
      obtain ⟨x, y, hb⟩ := List.length_eq_two.1 hb2
      rw [idxR_eq_ok] at hl hr
      simp [TL.shape, ha, hb] at hl hr c3
      exact ⟨y, by rw [hb, hr, ← c3, hl]⟩
    have hv : v.array.length = m * n := by
      rw [bmmRaw2_eq (l := .raw a) (r := .raw b) wa wb ha hb] at hf'
      cases hf'
      simp [allIndices_length]
    have hs : g.shape = [1, v.array.length] := hsh.resolve_right fun h => h.2.1 rfl
    have hgw : WF g := by rcases hg with ⟨_, hw, _⟩ | ⟨_, _, hw, _⟩ <;> exact hw
    have mat : ∀ (t : Raw T) (m n : Nat), t.shape = [m, n] → WF t → IsMat t m n (fun i j => t.array.getD (i * n + j) 0) := by
      intro t m n hs hw
      refine ⟨hs, hw, fun i hi j hj => ?_⟩
      have : i * n + j < t.array.length := by rw [hw, hs]; simpa using mul_add_lt hi hj
      simp [this]
    obtain ⟨x, y, h1, h2, h3, h4, h5, _⟩ := bmmJvp_cells (mat a m kk ha wa) (mat b kk n hb wb) (mat g 1 (m * n) (by rw [hs, hv]) hgw)
    refine ⟨[x, y], h1, .cons ⟨?_, h3⟩ (.cons ⟨?_, h5⟩ .nil)⟩
    · rw [h2, wa, ha]; simp
    · rw [h4, wb, hb]; simp
  | dot => exact absurd rfl hdot

theorem bind_mapM_exists {α β : Type} {f : α → R (List β)} {l : List α} (h : ∀ p ∈ l, ∃ b, f p = .ok b) :
    ∃ us, (l.mapM f >>= fun us => (pure us.flatten : R (List β))) = .ok us := by
  have : ∃ us, l.mapM f = .ok us := by
    induction l with
    | nil => exact ⟨[], rfl⟩
    | cons p l ihl =>
      obtain ⟨us, h1⟩ := h p (by simp)
      obtain ⟨us', h2⟩ := ihl fun q hq => h q (by simp [hq])
      rw [List.mapM_cons, h1, R.bind_ok, h2]
      exact ⟨_, rfl⟩
  obtain ⟨us, hus⟩ := this
  exact ⟨_, by rw [hus]; rfl⟩

/-- Conditions under which the gradient function of the tensor `m` accepts gradients from above. -/
def JvpFine (h : Heap T) (m : Nat) : Prop := ∀ d, h[m]?.bind (·.gradFn) = some d → d.kind ≠ .dot ∧
  (d.kind = .bmm → ∀ i, d.inputs[0]? = some i → ∀ n, h[i]? = some n → n.val.shape.length = 2)

theorem jvpUpdates_ok {h : Heap T} (hg : h.Good) : ∀ (fuel m : Nat) {n : Node T} {d : Deriv} {g : Raw T} {gf : Nat → Nat → T},
    m ≤ fuel → h[m]? = some n → n.gradFn = some d →
    (∀ a x, Ancestor h a m → h[a]? = some x → WF x.val ∧ Pos x.val.shape ∧ JvpFine h a) → JvpFine h m →
    GradOk g 1 n.val.array.length gf → (g.shape = [1, n.val.array.length] ∨ n.val.array.length = 1 ∧ d.kind ≠ .bmm ∧ d.kind ≠ .abs) →
    ∃ us, jvpUpdates (fuel + 1) h d [g] = .ok us := by
  intro fuel
  induction fuel using Nat.strong_induction_on with
  | _ fuel ih =>
  intro m n d g gf hm hn hd hanc hfine hgo hsh
  obtain ⟨vs, hvs, hfw⟩ := (hg m n hn).explained d hd
  have hvs' := Heap.vals_eq_ok.1 hvs
  have hin : ∀ i ∈ d.inputs, Ancestor h i m := fun i hi => .single ⟨n, d, hn, hd, hi⟩
  obtain ⟨hk1, hk2⟩ := hfine d (by simp [hn, hd])
  obtain ⟨out, ho1, ho2⟩ := applyJvp_succ hfw (by
    intro x hx
    obtain ⟨i, hi, n', hn', rfl⟩ := forall₂_mem_right hvs' hx
    obtain ⟨h1, h2, _⟩ := hanc i n' (hin i hi) hn'
    exact ⟨h1, h2⟩) hk1 (by
    intro hb a ha
    obtain ⟨hlt, ha⟩ := List.getElem?_eq_some_iff.1 ha
    have hlt' : 0 < d.inputs.length := by rw [hvs'.length_eq]; exact hlt
    obtain ⟨n', hn', hv'⟩ := hvs'.get hlt' hlt
    have := hk2 hb _ (List.getElem?_eq_getElem hlt') n' hn'
    simp only [List.get_eq_getElem] at hv'
    rw [ha] at hv'
    rw [← hv']
    exact this) hgo hsh
  unfold jvpUpdates
  rw [hvs, R.bind_ok, ho1, R.bind_ok]
  refine bind_mapM_exists ?_
  rintro ⟨o, i⟩ hp
  obtain ⟨j, hj⟩ := List.mem_iff_getElem.1 hp
  obtain ⟨hjl, hj⟩ := hj
  simp only [List.length_zip] at hjl
  simp only [List.getElem_zip, Prod.mk.injEq] at hj
  obtain ⟨rfl, rfl⟩ := hj
  have hjv : j < vs.length := by rw [← hvs'.length_eq]; omega
  obtain ⟨n', hn', hv'⟩ := hvs'.get (i := j) (by omega) hjv
  obtain ⟨hs, hw⟩ := ho2.get (i := j) (by omega) hjv
  simp only [List.get_eq_getElem] at hn' hv' hs hw
  have hi := hin _ (List.getElem_mem (show j < d.inputs.length by omega))
  obtain ⟨w1, p1, f1⟩ := hanc _ n' hi hn'
  have hlen : out[j].array.length = n'.val.array.length := by rw [hw, hs, hv']; simp
  simp only [Heap.node_eq_ok.2 hn', R.bind_ok, hlen, beq_self_eq_true, assertR_true]
  rw [Raw.new_ok (by rw [hlen]; exact w1), R.bind_ok]
  cases hgf : n'.gradFn with
  | none => exact ⟨_, rfl⟩
  | some d' =>
    have hlt : d.inputs[j] < m := (hg m n hn).older d hd _ (List.getElem_mem _)
    obtain ⟨f', rfl⟩ : ∃ f', fuel = f' + 1 := ⟨fuel - 1, by omega⟩
    rw [← hv'] at hs
    obtain ⟨us, hus⟩ := ih f' (by omega) d.inputs[j] (by omega) hn' hgf
      (fun a x ha hx => hanc a x (ha.trans hi) hx) f1 (gradOk_row hs hw) (.inl hs)
    simp only [hus]
    exact ⟨_, rfl⟩

end RL
