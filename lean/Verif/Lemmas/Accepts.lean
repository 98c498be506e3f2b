import Verif.Lemmas.BmmStack
import Verif.Props.Elementwise
import Verif.Props.Graph3

/-!
# Exactly when a backward pass succeeds: lemmas
-/

namespace RL

open Spec

variable {T : Type}

theorem dotJvp_succ [Zero T] [Add T] [Mul T] {a b g : Raw T} (wa : WF a) (wb : WF b) (hs : a.shape = b.shape) (ha : a.shape = [] ∨ a.shape = [1, 1])
    (hg : g.shape = [1, 1]) (wg : WF g) :
    ∃ out, dotJvp [a, b] [g] = .ok out ∧ List.Forall₂ (fun o x => o.shape = [1, x.array.length] ∧ WF o) out [a, b] := by
  have key : ∀ x : Raw T, WF x → (x.shape = [] ∨ x.shape = [1, 1]) → ∃ o, jvpFromFullJacobians g x = .ok o ∧ o.shape = [1, x.array.length] ∧ WF o := by
    rintro ⟨xa, xs⟩ wx hx
    obtain ⟨ga, gs⟩ := g
    simp only at hx hg
    subst hg
    obtain ⟨y, rfl⟩ := List.length_eq_one_iff.1 (show ga.length = 1 from wg)
    rcases hx with rfl | rfl
    · obtain ⟨z, rfl⟩ := List.length_eq_one_iff.1 (show xa.length = 1 from wx)
      exact ⟨⟨[y * z], [1, 1]⟩, rfl, rfl, rfl⟩
    · obtain ⟨z, rfl⟩ := List.length_eq_one_iff.1 (show xa.length = 1 from wx)
      exact ⟨⟨[y * z], [1, 1]⟩, rfl, rfl, rfl⟩
  obtain ⟨o1, e1, s1⟩ := key b wb (hs ▸ ha)
  obtain ⟨o2, e2, s2⟩ := key a wa ha
  have hl : b.array.length = a.array.length := by rw [wa, wb, hs]
  rw [hl] at s1
  rw [← hl] at s2
  refine ⟨[o1, o2], ?_, .cons s1 (.cons s2 .nil)⟩
  simp [dotJvp, idxR, e1, e2]

theorem forall₂_mem_left {α β : Type _} {P : α → β → Prop} {l : List α} {bs : List β} (h : List.Forall₂ P l bs) {a : α}
    (ha : a ∈ l) : ∃ b ∈ bs, P a b := by
  induction h with
  | nil => simp at ha
  | cons h1 _ ih =>
    rcases List.mem_cons.1 ha with rfl | ha
    · exact ⟨_, by simp, h1⟩
    · obtain ⟨b, hb, hp⟩ := ih ha
      exact ⟨b, by simp [hb], hp⟩

theorem bind_mapM_iff {α β : Type} {f : α → R (List β)} {l : List α} :
    (∃ us, (l.mapM f >>= fun us => (pure us.flatten : R (List β))) = .ok us) ↔ ∀ p ∈ l, ∃ b, f p = .ok b := by
  refine ⟨?_, bind_mapM_exists⟩
  rintro ⟨us, h⟩
  rw [R.bind_eq_ok] at h
  obtain ⟨vs, h, -⟩ := h
  induction l generalizing vs with
  | nil => simp
  | cons p l ih =>
    rw [List.mapM_cons, R.bind_eq_ok] at h
    obtain ⟨b, hb, h⟩ := h
    rw [R.bind_eq_ok] at h
    obtain ⟨bs, hbs, -⟩ := h
    intro q hq
    rcases List.mem_cons.1 hq with rfl | hq
    · exact ⟨b, hb⟩
    · exact ih bs hbs q hq

variable [Zero T] [One T] [Add T] [Mul T] [Sub T] [Neg T] [LT T] [DecidableLT T] [LE T] [DecidableLE T] [RealFn T]

/-- the factors of the dot products `a` may be computed from have one element and 0 or 2 dimensions -/
def DotFine (h : Heap T) (a : Nat) : Prop := ∀ n d, h[a]? = some n → n.gradFn = some d → d.kind = .dot → ∀ i ∈ d.inputs, ∀ w, h[i]? = some w →
  w.val.shape = [] ∨ w.val.shape = [1, 1]

/-- the left operand of the product `a` may be computed with is a matrix, or has one element -/
def BmmFine (h : Heap T) (a : Nat) : Prop := ∀ n d, h[a]? = some n → n.gradFn = some d → d.kind = .bmm → ∀ i, d.inputs[0]? = some i → ∀ w, h[i]? = some w →
  w.val.shape.length = 2 ∨ ∀ x ∈ w.val.shape, x = 1

/-- `a` was computed with an operation whose gradient function accepts rows -/
def RowFine (h : Heap T) (a : Nat) : Prop := DotFine h a ∧ BmmFine h a

theorem jvpUpdates_iff {h : Heap T} (hg : h.Good) : ∀ (fuel m : Nat) {n : Node T} {d : Deriv} {g : Raw T} {gf : Nat → Nat → T},
    m ≤ fuel → h[m]? = some n → n.gradFn = some d →
    (∀ a x, Ancestor h a m → h[a]? = some x → WF x.val ∧ Pos x.val.shape) →
    GradOk g 1 n.val.array.length gf → (g.shape = [1, n.val.array.length] ∨ n.val.array.length = 1 ∧ d.kind ≠ .bmm ∧ d.kind ≠ .abs ∧ d.kind ≠ .dot) →
    ((∃ us, jvpUpdates (fuel + 1) h d [g] = .ok us) ↔ ∀ a, a = m ∨ Ancestor h a m → RowFine h a) := by
  intro fuel
  induction fuel using Nat.strong_induction_on with
  | _ fuel ih =>
  intro m n d g gf hm hn hd hanc hgo hsh
  obtain ⟨vs, hvs, hfw⟩ := (hg m n hn).explained d hd
  have hvs' := Heap.vals_eq_ok.1 hvs
  have hin : ∀ i ∈ d.inputs, Ancestor h i m := fun i hi => .single ⟨n, d, hn, hd, hi⟩
  have hvw : ∀ x ∈ vs, WF x ∧ Pos x.shape := by
    intro x hx
    obtain ⟨i, hi, n', hn', rfl⟩ := forall₂_mem_right hvs' hx
    exact hanc i n' (hin i hi) hn'
  have hself : (d.kind = .dot → ∀ x ∈ vs, x.shape = [] ∨ x.shape = [1, 1]) ↔ DotFine h m := by
    constructor
    · intro H n' d' hn' hd' hk i hi w hw
      rw [hn] at hn'
      cases hn'
      rw [hd] at hd'
      cases hd'
      obtain ⟨x, hx, w', hw', rfl⟩ := forall₂_mem_left hvs' hi
      rw [hw] at hw'
      cases hw'
      exact H hk _ hx
    · intro H hk x hx
      obtain ⟨i, hi, n', hn', rfl⟩ := forall₂_mem_right hvs' hx
      exact H n d hn hd hk i hi n' hn'
  have hself2 : (d.kind = .bmm → ∀ a, vs[0]? = some a → a.shape.length = 2 ∨ ∀ x ∈ a.shape, x = 1) ↔ BmmFine h m := by
    constructor
    · intro H n' d' hn' hd' hk i hi w hw
      rw [hn] at hn'
      cases hn'
      rw [hd] at hd'
      cases hd'
      obtain ⟨hlt, hi⟩ := List.getElem?_eq_some_iff.1 hi
      have hlt' : 0 < vs.length := by rw [← hvs'.length_eq]; exact hlt
      obtain ⟨w', hw', hv'⟩ := hvs'.get hlt hlt'
      simp only [List.get_eq_getElem, hi] at hw'
      rw [hw] at hw'
      cases hw'
      exact H hk w.val (by rw [hv']; exact List.getElem?_eq_getElem hlt')
    · intro H hk a ha
      obtain ⟨hlt, ha⟩ := List.getElem?_eq_some_iff.1 ha
      have hlt' : 0 < d.inputs.length := by rw [hvs'.length_eq]; exact hlt
      obtain ⟨w', hw', hv'⟩ := hvs'.get hlt' hlt
      simp only [List.get_eq_getElem] at hv' hw'
      rw [ha] at hv'
      rw [← hv']
      exact H n d hn hd hk _ (List.getElem?_eq_getElem hlt') w' hw'
  by_cases hbad2 : d.kind = .bmm ∧ ¬ ∀ a, vs[0]? = some a → a.shape.length = 2 ∨ ∀ x ∈ a.shape, x = 1
  · refine iff_of_false ?_ fun H => hbad2.2 (hself2.2 (H m (.inl rfl)).2 hbad2.1)
    obtain ⟨hk, hne⟩ := hbad2
    rw [hk] at hfw
    obtain ⟨a, b, rfl⟩ := List.length_eq_two.1 (fwd_arity hfw)
    obtain ⟨wa, pa⟩ := hvw a (by simp)
    obtain ⟨wb, pb⟩ := hvw b (by simp)
    have hfw' : bmmRaw (.raw a) (.raw b) = .ok n.val := hfw
    obtain ⟨_, _, _, h2, _⟩ := bmmRaw_sizes hfw'
    simp only [List.getElem?_cons_zero, Option.some.injEq, forall_eq', not_or] at hne
    have hgs : g.shape = [1, n.val.array.length] := hsh.resolve_right fun h => h.2.1 hk
    rintro ⟨us, e⟩
    unfold jvpUpdates at e
    rw [hvs, R.bind_ok, R.bind_eq_ok, hk] at e
    obtain ⟨out, ho, e⟩ := e
    have hl2 : d.inputs.length = 2 := hvs'.length_eq
    obtain ⟨i, j, hij⟩ := List.length_eq_two.1 hl2
    have ho' : bmmJvp [a, b] [g] = .ok out := ho
    have hout2 : ∃ l r, out = [l, r] := by
      have := ho'
      simp only [bmmJvp, R.bind_eq_ok] at this
      obtain ⟨_, _, _, _, _, _, _, _, _, _, _, _, ⟨_, _⟩, _, l, _, r, _, h⟩ := this
      rw [R.pure_eq_ok] at h
      exact ⟨l, r, h.symm⟩
    obtain ⟨l, r, rfl⟩ := hout2
    have hfirst := bind_mapM_iff.1 ⟨us, e⟩ (l, i) (by simp [hij])
    obtain ⟨_, hfirst⟩ := hfirst
    rw [R.bind_eq_ok] at hfirst
    obtain ⟨w, hw, hfirst⟩ := hfirst
    rw [R.bind_eq_ok] at hfirst
    obtain ⟨_, hass, -⟩ := hfirst
    rw [assertR_eq_ok, beq_iff_eq] at hass
    have hwa : w.val = a := by
      rw [hij] at hvs'
      obtain ⟨w', hw', rfl⟩ := (List.forall₂_cons.1 hvs').1
      rw [Heap.node_eq_ok, hw'] at hw
      cases hw
      rfl
    simp only [hwa] at hass
    exact hne.2 (bmmJvp_stack hfw' wa pa pb (by omega) hgs ho' hass)
  unfold jvpUpdates
  rw [hvs, R.bind_ok]
  by_cases hbad : d.kind = .dot ∧ ¬ ∀ x ∈ vs, x.shape = [] ∨ x.shape = [1, 1]
  · refine iff_of_false ?_ fun H => hbad.2 (hself.2 (H m (.inl rfl)).1 hbad.1)
    obtain ⟨hk, hne⟩ := hbad
    rw [hk] at hfw
    obtain ⟨a, b, rfl⟩ := List.length_eq_two.1 (fwd_arity hfw)
    obtain ⟨wa, _⟩ := hvw a (by simp)
    obtain ⟨wb, _⟩ := hvw b (by simp)
    have hs : a.shape = b.shape := by
      by_contra hs
      obtain ⟨p, hp, _⟩ := (C17_dot_partial a b wa wb).2 hs
      have hfw' : dotRaw (.raw a) (.raw b) = .ok n.val := hfw
      rw [hp] at hfw'
      cases hfw'
    have hfw' : dotRaw (.raw a) (.raw b) = .ok n.val := hfw
    rw [(C17_dot_partial a b wa wb).1 hs] at hfw'
    have hl : n.val.array.length = 1 := by rw [← Except.ok.inj hfw']; rfl
    have hgs : g.shape = [1, 1] := by
      rcases hsh with h | h
      · rw [h, hl]
      · exact absurd hk h.2.2.2
    simp only [List.mem_cons, List.not_mem_nil, or_false, forall_eq_or_imp, forall_eq, ← hs, and_self, not_or] at hne
    obtain ⟨p, hp, _⟩ := C41_rejects a b g hs hne.2 hne.1 hgs
    rintro ⟨us, e⟩
    rw [hk, show applyJvp .dot [a, b] [g] = dotJvp [a, b] [g] from rfl, hp] at e
    cases e
  · have hout : ∃ out, applyJvp d.kind vs [g] = .ok out ∧ List.Forall₂ (fun o x => o.shape = [1, x.array.length] ∧ WF o) out vs := by
      by_cases hk : d.kind = .dot
      · rw [hk] at hfw ⊢
        obtain ⟨a, b, rfl⟩ := List.length_eq_two.1 (fwd_arity hfw)
        obtain ⟨wa, _⟩ := hvw a (by simp)
        obtain ⟨wb, _⟩ := hvw b (by simp)
        have hs : a.shape = b.shape := by
          by_contra hs
          obtain ⟨p, hp, _⟩ := (C17_dot_partial a b wa wb).2 hs
          have hfw' : dotRaw (.raw a) (.raw b) = .ok n.val := hfw
          rw [hp] at hfw'
          cases hfw'
        have hfw' : dotRaw (.raw a) (.raw b) = .ok n.val := hfw
        rw [(C17_dot_partial a b wa wb).1 hs] at hfw'
        have hl : n.val.array.length = 1 := by rw [← Except.ok.inj hfw']; rfl
        have hgs : g.shape = [1, 1] := by
          rcases hsh with h | h
          · rw [h, hl]
          · exact absurd hk h.2.2.2
        have hgw : WF g := by rcases hgo with ⟨_, hw, _⟩ | ⟨_, _, hw, _⟩ <;> exact hw
        have hfine : ∀ x ∈ [a, b], x.shape = [] ∨ x.shape = [1, 1] := by
          by_contra h
          exact hbad ⟨hk, h⟩
        exact dotJvp_succ wa wb hs (hfine a (by simp)) hgs hgw
      · by_cases hst : d.kind = .bmm ∧ ∃ a, vs[0]? = some a ∧ a.shape.length ≠ 2
        · obtain ⟨hb, a, ha, hne⟩ := hst
          have hones : ∀ x ∈ a.shape, x = 1 := by
            by_contra hc
            exact hbad2 ⟨hb, fun H => (H a ha).elim hne hc⟩
          rw [hb] at hfw ⊢
          obtain ⟨a', b, rfl⟩ := List.length_eq_two.1 (fwd_arity hfw)
          cases ha
          have hfw' : bmmRaw (.raw a) (.raw b) = .ok n.val := hfw
          obtain ⟨_, _, _, h2, _⟩ := bmmRaw_sizes hfw'
          have hgw : WF g := by rcases hgo with ⟨_, hw, _⟩ | ⟨_, _, hw, _⟩ <;> exact hw
          exact bmmJvp_ones_succ hfw' (hvw a (by simp)).1 (hvw b (by simp)).1 (by omega) hones (hsh.resolve_right fun h => h.2.1 hb) hgw
        · refine applyJvp_succ hfw hvw hk (fun hb a ha => ?_) hgo (hsh.imp_right fun h => ⟨h.1, h.2.1, h.2.2.1⟩)
          by_contra hc
          exact hst ⟨hb, a, ha, hc⟩
    obtain ⟨out, ho1, ho2⟩ := hout
    rw [ho1, R.bind_ok, bind_mapM_iff]
    have hme : RowFine h m := by
      refine ⟨hself.1 fun hk => ?_, hself2.1 fun hk => ?_⟩
      · by_contra h
        exact hbad ⟨hk, h⟩
      · by_contra h
        exact hbad2 ⟨hk, h⟩
    have hlo : out.length = d.inputs.length := by rw [ho2.length_eq, hvs'.length_eq]
    have step : ∀ j (hj : j < d.inputs.length), ((∃ b, (fun (p : Raw T × Nat) => do
        let n ← h.node p.2
        assertR (p.1.array.length == n.val.array.length)
        let shapedGrad ← Raw.new p.1.array n.val.shape
        let rest ← match n.gradFn with
          | some d' => jvpUpdates fuel h d' [p.1]
          | none => pure []
        return (p.2, shapedGrad) :: rest) (out[j], d.inputs[j]) = .ok b) ↔
        ∀ a, a = d.inputs[j] ∨ Ancestor h a d.inputs[j] → RowFine h a) := by
      intro j hj
      have hjv : j < vs.length := by rw [← hvs'.length_eq]; omega
      obtain ⟨n', hn', hv'⟩ := hvs'.get (i := j) (by omega) hjv
      obtain ⟨hs, hw⟩ := ho2.get (i := j) (by omega) hjv
      simp only [List.get_eq_getElem] at hn' hv' hs hw
      have hi := hin _ (List.getElem_mem (show j < d.inputs.length by omega))
      obtain ⟨w1, p1⟩ := hanc _ n' hi hn'
      have hlen : out[j].array.length = n'.val.array.length := by rw [hw, hs, hv']; simp
      simp only [Heap.node_eq_ok.2 hn', R.bind_ok, hlen, beq_self_eq_true, assertR_true]
      rw [Raw.new_ok (by rw [hlen]; exact w1), R.bind_ok]
      cases hgf : n'.gradFn with
      | none =>
        refine iff_of_true ⟨_, rfl⟩ ?_
        rintro a (rfl | ha)
        · constructor <;>
          · intro n2 d2 hn2 hd2
            rw [hn'] at hn2
            cases hn2
            rw [hgf] at hd2
            cases hd2
        · obtain ⟨n3, d3, h3, h4, _⟩ : ∃ n3 d3, h[d.inputs[j]]? = some n3 ∧ n3.gradFn = some d3 ∧ True := by
            cases ha with
            | single hx => obtain ⟨n3, d3, h3, h4, _⟩ := hx; exact ⟨n3, d3, h3, h4, trivial⟩
            | tail _ hx => obtain ⟨n3, d3, h3, h4, _⟩ := hx; exact ⟨n3, d3, h3, h4, trivial⟩
          rw [hn'] at h3
          cases h3
          rw [hgf] at h4
          cases h4
      | some d' =>
        have hlt : d.inputs[j] < m := (hg m n hn).older d hd _ (List.getElem_mem _)
        obtain ⟨f', rfl⟩ : ∃ f', fuel = f' + 1 := ⟨fuel - 1, by omega⟩
        rw [← hv'] at hs
        rw [← ih f' (by omega) d.inputs[j] (by omega) hn' hgf (fun a x ha hx => hanc a x (ha.trans hi) hx)
          (gradOk_row hs hw) (.inl hs)]
        constructor
        · rintro ⟨b, e⟩
          rw [R.bind_eq_ok] at e
          obtain ⟨us, e, -⟩ := e
          exact ⟨us, e⟩
        · rintro ⟨us, e⟩
          exact ⟨_, by simp only [e]; rfl⟩
    constructor
    · intro H a ha
      rcases ha with rfl | ha
      · exact hme
      · have : ∃ j, ∃ hj : j < d.inputs.length, a = d.inputs[j] ∨ Ancestor h a d.inputs[j] := by
          cases ha with
          | single hx =>
            obtain ⟨n3, d3, h3, h4, h5⟩ := hx
            rw [hn] at h3
            cases h3
            rw [hd] at h4
            cases h4
            obtain ⟨j, hj, rfl⟩ := List.mem_iff_getElem.1 h5
            exact ⟨j, hj, .inl rfl⟩
          | tail hp hx =>
            obtain ⟨n3, d3, h3, h4, h5⟩ := hx
            rw [hn] at h3
            cases h3
            rw [hd] at h4
            cases h4
            obtain ⟨j, hj, rfl⟩ := List.mem_iff_getElem.1 h5
            exact ⟨j, hj, .inr hp⟩
        obtain ⟨j, hj, hx⟩ := this
        exact (step j hj).1 (H _ (List.mem_iff_getElem.2 ⟨j, by simp [hlo, hj], by simp⟩)) a hx
    · rintro H ⟨o, i⟩ hp
      obtain ⟨j, hjl, hj⟩ := List.mem_iff_getElem.1 hp
      simp only [List.length_zip] at hjl
      simp only [List.getElem_zip, Prod.mk.injEq] at hj
      obtain ⟨rfl, rfl⟩ := hj
      refine (step j (by omega)).2 fun a ha => H a (.inr ?_)
      have hi := hin _ (List.getElem_mem (show j < d.inputs.length by omega))
      rcases ha with rfl | ha
      · exact hi
      · exact ha.trans hi

end RL
