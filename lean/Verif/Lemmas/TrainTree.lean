import Verif.SpecTrain
import Verif.Lemmas.InnerSum
import Verif.Props.Graph2

/-! Helper lemmas: what a tensor was computed from -/

namespace RL

open Spec

theorem Spec.Feeds.cases {T : Type} {h : Heap T} {i r : Nat} {n : Node T} (hi : Feeds h i r) (hn : h[r]? = some n) :
    i = r ∨ ∃ d, n.gradFn = some d ∧ ∃ a ∈ d.inputs, Feeds h i a := by
  rcases hi with rfl | hi
  · exact Or.inl rfl
  · right
    obtain ⟨c, hc, n', d, hn', hd, ha⟩ := Relation.TransGen.tail'_iff.1 hi
    rw [hn] at hn'
    cases hn'
    refine ⟨d, hd, c, ha, ?_⟩
    rcases Relation.reflTransGen_iff_eq_or_transGen.1 hc with rfl | hc
    · exact Or.inl rfl
    · exact Or.inr hc

theorem Spec.Feeds.trans {T : Type} {h : Heap T} {i j l : Nat} (h1 : Feeds h i j) (h2 : Feeds h j l) : Feeds h i l := by
  rcases h1 with rfl | h1
  · exact h2
  rcases h2 with rfl | h2
  · exact Or.inr h1
  · exact Or.inr (Relation.TransGen.trans h1 h2)

theorem Spec.Feeds.anc {T : Type} {h : Heap T} {i j l : Nat} (h1 : Feeds h i j) (h2 : Ancestor h j l) : Ancestor h i l := by
  rcases h1 with rfl | h1
  · exact h2
  · exact Relation.TransGen.trans h1 h2

theorem isInput_of {T : Type} {h : Heap T} {i r : Nat} {n : Node T} {d : Deriv} (hn : h[r]? = some n) (hd : n.gradFn = some d)
    (hi : i ∈ d.inputs) : Ancestor h i r := .single ⟨n, d, hn, hd, hi⟩

section
variable {T : Type} [Zero T] [One T] [Add T] [Mul T] [Sub T] [Neg T] [LT T] [DecidableLT T] [LE T] [DecidableLE T] [RealFn T]

theorem Frame.isInput {h h' : Heap T} (hf : Frame h h') {a b : Nat} (hb : b < h.length) : IsInput h' a b ↔ IsInput h a b := by
  have hn := List.getElem?_eq_getElem hb
  obtain ⟨g, hg⟩ := hf.get hn
  constructor
  · rintro ⟨n, d, h1, h2, h3⟩
    rw [hg] at h1
    cases h1
    exact ⟨_, d, hn, h2, h3⟩
  · rintro ⟨n, d, h1, h2, h3⟩
    rw [hn] at h1
    cases h1
    exact ⟨_, d, hg, h2, h3⟩

theorem Frame.ancestor {h h' : Heap T} (hg : h.Good) (hf : Frame h h') {a b : Nat} (hb : b < h.length) :
    Ancestor h' a b ↔ Ancestor h a b := by
  constructor
  · intro hab
    have : ∀ {a}, Ancestor h' a b → Ancestor h a b ∧ a < h.length := by
      intro a hab
      induction hab using Relation.TransGen.head_induction_on with
      | single h1 =>
        have h1 := (hf.isInput hb).1 h1
        obtain ⟨n, d, hn, hd, ha⟩ := h1
        exact ⟨.single ⟨n, d, hn, hd, ha⟩, ((hg _ n hn).older d hd _ ha).trans hb⟩
      | head h1 _ ih =>
        have h1 := (hf.isInput ih.2).1 h1
        obtain ⟨n, d, hn, hd, ha⟩ := h1
        exact ⟨.head ⟨n, d, hn, hd, ha⟩ ih.1, ((hg _ n hn).older d hd _ ha).trans ih.2⟩
    exact (this hab).1
  · intro hab
    induction hab with
    | single h1 => exact .single ((hf.isInput hb).2 h1)
    | @tail c d h0 h1 ih =>
      obtain ⟨n, e, hn, hd, ha⟩ := h1
      have hd' : d < h.length := getElem?_lt hn
      have hc : c < h.length := ((hg _ n hn).older e hd _ ha).trans hd'
      exact .tail (ih hc) ((hf.isInput hd').2 ⟨n, e, hn, hd, ha⟩)

theorem Frame.feeds {h h' : Heap T} (hg : h.Good) (hf : Frame h h') {a b : Nat} (hb : b < h.length) : Feeds h' a b ↔ Feeds h a b := by
  rw [Feeds, Feeds, hf.ancestor hg hb]

theorem Spec.Feeds.lt {h : Heap T} (hg : h.Good) {a b : Nat} (hab : Feeds h a b) (hb : b < h.length) : a < h.length := by
  rcases hab with rfl | hab
  · exact hb
  · induction hab using Relation.TransGen.head_induction_on with
    | single h1 => obtain ⟨n, d, hn, hd, ha⟩ := h1; exact ((hg _ n hn).older d hd _ ha).trans hb
    | head h1 _ ih => obtain ⟨n, d, hn, hd, ha⟩ := h1; exact ((hg _ n hn).older d hd _ ha).trans ih

theorem Frame.dataOf {h h' : Heap T} (hf : Frame h h') {a : Nat} (ha : a < h.length) : dataOf h' a = dataOf h a := by
  have hn := List.getElem?_eq_getElem ha
  obtain ⟨g, hg⟩ := hf.get hn
  simp [Spec.dataOf, hg, hn]

theorem Frame.historyOf {h h' : Heap T} (hf : Frame h h') {a : Nat} (ha : a < h.length) : historyOf h' a = historyOf h a := by
  have hn := List.getElem?_eq_getElem ha
  obtain ⟨g, hg⟩ := hf.get hn
  simp [Spec.historyOf, hg, hn]

theorem gradOf_append {h ns : Heap T} (hg : h.Good) {a : Nat} (ha : a < h.length) : gradOf (h ++ ns) a = gradOf h a :=
  gradOf_congr hg (Frame.append _ _) (List.getElem?_eq_getElem ha)
    (by rw [List.getElem?_append_left ha]; exact List.getElem?_eq_getElem ha)

end

/-- conditions on one tensor of a computation; `S` stands for the condition on sizes of what depends on `π`, `K` for the absence of kinks -/
structure CleanNode (S K : Prop) (π : Nat) (h : Heap ℝ) (i : Nat) : Prop where
  data : ∀ v, dataOf h i = some v → WF v ∧ Pos v.shape
  kind : ∀ d, historyOf h i = some (some d) → d.kind ∈ [JvpKind.add, .neg, .relu, .abs, .tanh, .bmm]
  kink : K → ∀ a k v, historyOf h i = some (some ⟨[a], k⟩) → k = .relu ∨ k = .abs → dataOf h a = some v → 0 ∉ v.array
  mats : ∀ a b, historyOf h i = some (some ⟨[a, b], .bmm⟩) → ∃ m k n, shapeOf h a = [m, k] ∧ shapeOf h b = [k, n]
  small : S → ∀ a b, historyOf h i = some (some ⟨[a, b], .bmm⟩) → (Feeds h π a → (shapeOf h a).prod ≤ 32) ∧ (Feeds h π b → (shapeOf h b).prod ≤ 32)
  fit : ∀ v g, dataOf h i = some v → gradOf h i = some g → g.shape = v.shape ∧ WF g

/-- all that a tensor was computed from satisfies these conditions -/
def CleanTree (S K : Prop) (π : Nat) (h : Heap ℝ) (r : Nat) : Prop := ∀ i, Feeds h i r → CleanNode S K π h i

theorem CleanTree.step {S K : Prop} {π : Nat} {h : Heap ℝ} {r : Nat} {n : Node ℝ} {d : Deriv} (hn : h[r]? = some n) (hd : n.gradFn = some d)
    (hr : CleanNode S K π h r) (hi : ∀ a ∈ d.inputs, CleanTree S K π h a) : CleanTree S K π h r := by
  intro i h1
  rcases h1.cases hn with rfl | ⟨d', hd', a, ha, h2⟩
  · exact hr
  · rw [hd] at hd'
    cases hd'
    exact hi a ha i h2

theorem historyOf_node {T : Type} {h : Heap T} {i : Nat} {n : Node T} (hn : h[i]? = some n) : historyOf h i = some n.gradFn := by
  simp [historyOf, hn]

theorem gradOf_node_none {T : Type} {h : Heap T} {i : Nat} {n : Node T} (hn : h[i]? = some n) (hg : n.grad = none) : gradOf h i = none := by
  simp [gradOf, hn, hg]

/-- conditions on a new tensor -/
theorem CleanNode.mk' {S K : Prop} {π : Nat} {h : Heap ℝ} {i : Nat} {v : Raw ℝ} {d : Deriv} (hn : h[i]? = some ⟨v, none, some d⟩) (hv : WF v ∧ Pos v.shape)
    (hk : d.kind ∈ [JvpKind.add, .neg, .relu, .abs, .tanh, .bmm])
    (hkink : K → d.kind = .relu ∨ d.kind = .abs → ∀ a w, d.inputs = [a] → dataOf h a = some w → 0 ∉ w.array)
    (hm : d.kind = .bmm → ∀ a b, d.inputs = [a, b] → (∃ m k n, shapeOf h a = [m, k] ∧ shapeOf h b = [k, n]) ∧
      (S → (Feeds h π a → (shapeOf h a).prod ≤ 32) ∧ (Feeds h π b → (shapeOf h b).prod ≤ 32))) : CleanNode S K π h i := by
  have e1 := dataOf_node hn
  have e2 := historyOf_node hn
  have e3 := gradOf_node_none hn rfl
  refine ⟨?_, ?_, ?_, ?_, ?_, ?_⟩
  · intro w hw
    rw [e1] at hw
    cases hw
    exact hv
  · intro d' hd
    rw [e2] at hd
    cases hd
    exact hk
  · intro hK a k w hd hk' hw
    rw [e2] at hd
    cases hd
    exact hkink hK hk' a w rfl hw
  · intro a b hd
    rw [e2] at hd
    cases hd
    exact (hm rfl a b rfl).1
  · intro hS a b hd
    rw [e2] at hd
    cases hd
    exact (hm rfl a b rfl).2 hS
  · intro w g _ hg
    rw [e3] at hg
    cases hg

/-- tensors that are ready for training -/
theorem Spec.Ready.tree {S K : Prop} {π : Nat} {h ns : Heap ℝ} {x y : Nat} {ps : List Nat} (hr : Ready h x y ps) (hg : h.Good) {s : Nat}
    (hs : s ∈ x :: y :: ps) (hlt : s < h.length) : CleanTree S K π (h ++ ns) s := by
  intro i hi
  have hf := Frame.append h ns
  rw [hf.feeds hg hlt] at hi
  have hil := hi.lt hg hlt
  have hk : ∀ d, historyOf (h ++ ns) i = some (some d) → d.kind = .add ∨ d.kind = .neg := by
    intro d hd
    rw [hf.historyOf hil] at hd
    exact (hr.clean s hs i _ hi (dataOf_node (List.getElem?_eq_getElem hil))).2.2.2 d hd
  refine ⟨?_, ?_, ?_, ?_, ?_, ?_⟩
  · intro v hv
    rw [hf.dataOf hil] at hv
    have := hr.clean s hs i v hi hv
    exact ⟨this.1, this.2.1⟩
  · intro d hd
    rcases hk d hd with h1 | h1 <;> simp [h1]
  · intro _ a k v hd hk'
    rcases hk _ hd with h1 | h1 <;> simp only at h1 <;> subst h1 <;> simp at hk'
  · intro a b hd
    rcases hk _ hd with h1 | h1 <;> cases h1
  · intro _ a b hd
    rcases hk _ hd with h1 | h1 <;> cases h1
  · intro v g hv hgr
    rw [hf.dataOf hil] at hv
    rw [gradOf_append hg hil] at hgr
    exact (hr.clean s hs i v hi hv).2.2.1 g hgr

/-- the sum of such a tensor -/
theorem CleanTree.anc {S K : Prop} {π : Nat} {h : Heap ℝ} {l a : Nat} {v : Raw ℝ} {g : Option Nat} (hn : h[l]? = some ⟨v, g, some ⟨[a], .sum⟩⟩)
    (ht : CleanTree S K π h a) {i : Nat} (hi : Ancestor h i l) : CleanNode S K π h i := by
  obtain ⟨c, hc, n, d, hn', hd, hm⟩ := Relation.TransGen.tail'_iff.1 hi
  rw [hn] at hn'
  cases hn'
  cases hd
  simp only [List.mem_singleton] at hm
  subst hm
  refine ht _ ?_
  rcases Relation.reflTransGen_iff_eq_or_transGen.1 hc with rfl | hc
  · exact Or.inl rfl
  · exact Or.inr hc

/-- it is a loss that `backward` handles -/
theorem CleanTree.realLoss {S K : Prop} {π : Nat} {h : Heap ℝ} {l a : Nat} {v : Raw ℝ} {g : Option Nat}
    (hn : h[l]? = some ⟨v, g, some ⟨[a], .sum⟩⟩) (hv : v.shape = []) (wv : WF v) (ht : CleanTree S K π h a) : RealLoss h l := by
  have e2 := historyOf_node hn
  have anc : ∀ {i}, Ancestor h i l → CleanNode S K π h i := fun hi => ht.anc hn hi
  refine ⟨⟨_, e2, by simp⟩, ?_, ?_, fun i d hi hd => ?_, ?_, fun _ _ hd => by rw [e2] at hd; cases hd⟩
  · rw [shapeOf_eq hn, hv]
    rfl
  · intro i w hi hw
    rcases hi with rfl | hi
    · rw [dataOf_node hn] at hw
      cases hw
      exact ⟨wv, by rw [hv]; simp [Pos]⟩
    · exact (anc hi).data w hw
  · have := (anc hi).kind d hd
    simp only [List.mem_cons, List.not_mem_nil, or_false] at this ⊢
    tauto
  · intro i b c hi hd
    rcases hi with rfl | hi
    · rw [e2] at hd
      cases hd
    · exact (anc hi).mats b c hd

/-- there is no `sum` inside -/
theorem CleanTree.sumsOnTop {S K : Prop} {π : Nat} {h : Heap ℝ} {l a : Nat} {v : Raw ℝ} {g : Option Nat} (hg : h.Good)
    (hn : h[l]? = some ⟨v, g, some ⟨[a], .sum⟩⟩) (ht : CleanTree S K π h a) (x : Nat) : SumsOnTop h l x :=
  sumsOnTop_of_noInner hg fun i d hi hd h0 => by
    have := (ht.anc hn hi).kind d hd
    rw [h0] at this
    simp at this

/-- it is a loss with a derivative -/
theorem CleanTree.diffLoss {S K : Prop} {π : Nat} {h : Heap ℝ} {l a : Nat} {v : Raw ℝ} {g : Option Nat}
    (hn : h[l]? = some ⟨v, g, some ⟨[a], .sum⟩⟩) (hv : v.shape = []) (wv : WF v) (ht : CleanTree S K π h a) (hK : K) :
    DiffLoss h l ∧ (S → SmallFor h l π) := by
  have e2 := historyOf_node hn
  have anc : ∀ {i}, Ancestor h i l → CleanNode S K π h i := fun hi => ht.anc hn hi
  refine ⟨⟨ht.realLoss hn hv wv, ?_⟩, ?_⟩
  · intro i b k w hi hd hk hw
    rcases hi with rfl | hi
    · rw [e2] at hd
      cases hd
      simp at hk
    · exact (anc hi).kink hK b k w hd hk hw
  · intro hS i b c hi hd
    rcases hi with rfl | hi
    · rw [e2] at hd
      cases hd
    · exact (anc hi).small hS b c hd

/-- `backward` on it succeeds -/
theorem CleanTree.success {S K : Prop} {π : Nat} {h : Heap ℝ} {l a : Nat} {v : Raw ℝ} {g : Option Nat} (hr : Reachable h)
    (hn : h[l]? = some ⟨v, g, some ⟨[a], .sum⟩⟩) (hv : v.shape = []) (wv : WF v) (ht : CleanTree S K π h a) : ∃ h', backward h l = .ok h' := by
  have e2 := historyOf_node hn
  refine C39_partial h hr l v _ (dataOf_node hn) (by rw [wv, hv]; rfl) e2 (by simp) ?_ ?_
  · intro m e hm he
    rcases hm with rfl | hm
    · rw [e2] at he
      cases he
      simp
    · have hc := ht.anc hn hm
      refine ⟨fun h0 => ?_, fun hb i w hi hw => ?_⟩
      · have := hc.kind e he
        rw [h0] at this
        simp at this
      · obtain ⟨_, hnm, _, ⟨a, b, _, _, hab, _, _, _, ha, _⟩ | ⟨_, _, _, _, hk', _⟩⟩ := fwd_inputs hr.good he
        · obtain ⟨inputs, kind⟩ := e
          simp only at hab hb
          subst hab hb
          obtain ⟨m', k, n', s1, _⟩ := hc.mats a b he
          simp only [List.getElem?_cons_zero, Option.some.injEq] at hi
          subst hi
          rw [← shapeOf_data hw, s1]
          rfl
        · rw [hb] at hk'
          simp [isUnary] at hk'
  · intro b w hb hw
    have hc := ht.anc hn hb
    exact ⟨(hc.data w hw).1, (hc.data w hw).2, fun g hg => ⟨(hc.fit w g hw hg).2, Or.inl (hc.fit w g hw hg).1⟩⟩

/-- gradients after `backward` have the shapes of their tensors -/
theorem backward_fit {h h' : Heap ℝ} {l x : Nat} {v : Raw ℝ} (hg : h.Good) (e : backward h l = .ok h') (hv : dataOf h x = some v)
    (hfit : ∀ p, gradOf h x = some p → p.shape = v.shape ∧ WF p) : ∀ p, gradOf h' x = some p → p.shape = v.shape ∧ WF p := by
  obtain ⟨n, d, us, hln, hlen, hd, u1, a1⟩ := backward_inv hg e
  obtain ⟨nx, hnx, rfl⟩ := dataOf_eq.1 hv
  have hcs : ∀ c ∈ contribsTo x us, c.shape = nx.val.shape ∧ WF c := gradContribs_shape u1 hnx
  have hF : GradLock.Fit (some nx.val.shape) (gradOf h x) := by
    intro s hs g hg'
    cases hs
    exact hfit g hg'
  have hacc : gradOf h' x = addAll (gradOf h x) (contribsTo x us) :=
    gradAccum_fit hcs hF (applyUpdates_grad hg (getElem?_lt hnx) a1)
  have : ∀ {cs : List (Raw ℝ)} {o : Option (Raw ℝ)}, GradLock.Fit (some nx.val.shape) o → (∀ c ∈ cs, c.shape = nx.val.shape ∧ WF c) →
      GradLock.Fit (some nx.val.shape) (addAll o cs) := by
    intro cs
    induction cs with
    | nil => intro o ho _; exact ho
    | cons c cs ih =>
      intro o ho hc
      have hcc := hc c (by simp)
      exact ih (o := addGrad o (some c)) (ho.addGrad (by rw [hcc.1]) hcc.2) fun d hd => hc d (by simp [hd])
  intro p hp
  exact this hF hcs _ rfl p (hacc ▸ hp)

end RL
