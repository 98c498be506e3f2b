import Verif.Lemmas.Which

/-!
# Which training steps succeed
-/

namespace RL

open Spec

variable {T : Type} [Zero T] [One T] [Add T] [Mul T] [Sub T] [Neg T] [LT T] [DecidableLT T] [LE T] [DecidableLE T] [RealFn T]
variable {h h' : Heap T}

theorem Made.has_old {is : List Nat} {z : Nat} {s : List Nat} {c : Prop} (hg : h.Good) (hm : Made h is h' z s c) {i : Nat} {t : List Nat}
    (hi : Has h i t) : Has h' i t := by
  obtain ⟨ns, rfl⟩ := hm.append
  exact hi.append hg ns

theorem Made.trans {h1 h2 : Heap T} {is js ks : List Nat} {y z : Nat} {p q : List Nat} {c c' : Prop} (hg : h.Good) (m1 : Made h is h1 y p c)
    (m2 : Made h1 js h2 z q c') (hy : y ∈ js) (hk : ∀ i ∈ ks, (i ∈ is ∨ i ∈ js) ∧ ∃ s, Has h i s) (hi : ∀ i ∈ is, i ∈ ks)
    (hj : ∀ j ∈ js, j = y ∨ j ∈ ks) : Made h ks h2 z q (c' ∧ c) := by
  have old : ∀ i ∈ ks, Fine h1 i ↔ Fine h i := by
    intro i hi
    obtain ⟨-, s, hs⟩ := hk i hi
    obtain ⟨ns, rfl⟩ := m1.append
    exact fine_append hg hs.lt ns
  refine ⟨append_trans m1.append m2.append, m2.reach, m2.has, fun i hm => ?_, ?_⟩
  · rcases (hk i hm).1 with h3 | h3
    · refine Spec.Feeds.trans ?_ (m2.feeds y hy)
      have h4 := m1.feeds i h3
      obtain ⟨ns, rfl⟩ := m2.append
      exact ((Frame.append h1 ns).feeds m1.reach.good m1.has.lt).2 h4
    · exact m2.feeds i h3
  · rw [m2.fine]
    constructor
    · rintro ⟨h3, h4⟩
      obtain ⟨h5, h6⟩ := m1.fine.1 (h4 y hy)
      refine ⟨⟨h3, h5⟩, fun i hm => ?_⟩
      rcases (hk i hm).1 with h7 | h7
      · exact h6 i h7
      · exact (old i hm).1 (h4 i h7)
    · rintro ⟨⟨h3, h4⟩, h5⟩
      refine ⟨h3, fun j hm => ?_⟩
      rcases hj j hm with rfl | hm
      · exact m1.fine.2 ⟨h4, fun i hm => h5 i (hi i hm)⟩
      · exact (old j hm).2 (h5 j hm)

theorem Made.congr {is : List Nat} {z : Nat} {s : List Nat} {c c' : Prop} (hm : Made h is h' z s c) (hc : c ↔ c') : Made h is h' z s c' :=
  ⟨hm.append, hm.reach, hm.has, hm.feeds, by rw [hm.fine, hc]⟩

theorem ProdShape.unique {s p q : List Nat} {k n : Nat} (h1 : ProdShape s k n p) (h2 : ProdShape s k n q) : p = q := by
  rcases h1 with ⟨m, rfl, rfl⟩ | ⟨h3, -, a, b, ha, hb, rfl⟩
  · rcases h2 with ⟨m', h4, rfl⟩ | ⟨h4, -⟩
    · simp at h4
      rw [h4]
    · simp at h4
  · rcases h2 with ⟨m', rfl, -⟩ | ⟨-, -, a', b', ha', hb', rfl⟩
    · simp at h3
    · rw [ha] at ha'
      rw [hb] at hb'
      cases ha'
      cases hb'
      rfl

theorem prodShape_ones {s p : List Nat} {k n : Nat} (hp : ProdShape s k n p) (h3 : 3 ≤ s.length) (h1 : ∀ d ∈ s, d = 1) : k = 1 ∧ p = [1, 1, n] := by
  rcases hp with ⟨m, rfl, -⟩ | ⟨-, hk, a, b, ha, hb, rfl⟩
  · simp at h3
  · rw [h1 a (List.mem_of_getElem? ha), h1 b (List.mem_of_getElem? hb)]
    exact ⟨h1 k (List.mem_of_getLast? hk), rfl⟩

theorem trainable_cons {s p b y : List Nat} {k n : Nat} {ss : List (List Nat × List Nat)} (hp : ProdShape s k n p) (hc : Compatible p b) :
    Trainable s (([k, n], b) :: ss) y ↔ (s.length = 2 ∨ ∀ d ∈ s, d = 1) ∧ Trainable (bshape p b) ss y := by
  constructor
  · intro ht
    cases ht with
    | @matrix m _ _ _ _ _ _ h2 =>
      obtain rfl := hp.unique (.inl ⟨m, rfl, rfl⟩)
      exact ⟨.inl rfl, h2⟩
    | ones h3 h1 _ h2 =>
      obtain ⟨-, rfl⟩ := prodShape_ones hp h3 h1
      exact ⟨.inr h1, h2⟩
  · rintro ⟨hs, ht⟩
    rcases hp with ⟨m, rfl, rfl⟩ | ⟨h3, hk, a, c, ha, hb, rfl⟩
    · exact .matrix hc ht
    · rcases hs with hs | hs
      · omega
      · obtain ⟨rfl, h4⟩ := prodShape_ones (.inr ⟨h3, hk, a, c, ha, hb, rfl⟩) h3 hs
        rw [h4] at hc ht
        exact .ones h3 hs hc ht

theorem layer_which (hr : Reachable h) {l : Linear T} (hf : StdAct l.activation) {x : Nat} {s sw sb : List Nat} (hx : Has h x s)
    (hw : Has h l.weights sw) (hb : Has h l.bias sb) :
    (∀ h' z, l.forward h x = .ok (h', z) → ∃ k n p, sw = [k, n] ∧ ProdShape s k n p ∧ Compatible p sb ∧
      Made h [x, l.weights, l.bias] h' z (bshape p sb) (s.length = 2 ∨ ∀ d ∈ s, d = 1)) ∧
    ∀ ss y, Trainable s ((sw, sb) :: ss) y → ∃ q, l.forward h x = .ok q := by
  obtain ⟨t1, t2⟩ := bmmT_which hr hx hw
  refine ⟨fun h' z e => ?_, fun ss y ht => ?_⟩
  · simp only [Linear.forward, R.bind_eq_ok, Prod.exists] at e
    obtain ⟨h1, a, e1, h2, b, e2, e3⟩ := e
    obtain ⟨k, n, p, rfl, hp, m1⟩ := t1 _ _ e1
    have hb1 := m1.has_old hr.good hb
    obtain ⟨a1, a2⟩ := addT_which m1.reach m1.has hb1
    have hc := a1.1 ⟨_, e2⟩
    have m2 := a2 _ _ e2
    obtain ⟨_, _, e4, m3⟩ := act_which m2.reach m2.has hf
    rw [e3] at e4
    cases e4
    refine ⟨k, n, p, rfl, hp, hc, ?_⟩
    have hk : ∀ i ∈ [x, l.weights, l.bias], ∃ s, Has h i s := by
      intro i hi
      simp only [List.mem_cons, List.not_mem_nil, or_false] at hi
      rcases hi with rfl | rfl | rfl
      · exact ⟨_, hx⟩
      · exact ⟨_, hw⟩
      · exact ⟨_, hb⟩
    have m12 := m1.trans (ks := [x, l.weights, l.bias]) hr.good m2 (by simp) (fun i hi => ⟨by
        simp only [List.mem_cons, List.not_mem_nil, or_false] at hi ⊢
        rcases hi with rfl | rfl | rfl <;> simp, hk i hi⟩) (fun i hi => by
        simp only [List.mem_cons, List.not_mem_nil, or_false] at hi ⊢
        rcases hi with rfl | rfl <;> simp) (fun j hj => by
        simp only [List.mem_cons, List.not_mem_nil, or_false] at hj ⊢
        rcases hj with rfl | rfl <;> simp)
    exact (m12.trans (ks := [x, l.weights, l.bias]) hr.good m3 (by simp) (fun i hi => ⟨.inl hi, hk i hi⟩) (fun i hi => hi)
      (fun j hj => .inl (by simpa using hj))).congr (by simp)
  · have key : ∃ k n p, sw = [k, n] ∧ ((∃ m, s = [m, k]) ∨ 3 ≤ s.length ∧ k = 1 ∧ ∀ d ∈ s, d = 1) ∧ ProdShape s k n p ∧ Compatible p sb := by
      cases ht with
      | @matrix m k n _ _ _ h1 h2 => exact ⟨k, n, [m, n], rfl, .inl ⟨m, rfl⟩, .inl ⟨m, rfl, rfl⟩, h1⟩
      | @ones _ n _ _ _ h3 h1 h2 h4 =>
        have g : ∀ i (hi : i < s.length), s[i]? = some 1 := fun i hi => by rw [List.getElem?_eq_getElem hi, h1 _ (List.getElem_mem _)]
        exact ⟨1, n, [1, 1, n], rfl, .inr ⟨h3, rfl, h1⟩,
          .inr ⟨h3, by rw [List.getLast?_eq_getElem?]; exact g _ (by omega), 1, 1, g 0 (by omega), g 1 (by omega), rfl⟩, h2⟩
    obtain ⟨k, n, p, rfl, hs, hp, hc⟩ := key
    obtain ⟨⟨h1, a⟩, e1⟩ := t2 k n rfl hs
    obtain ⟨k', n', p', q1, q2, m1⟩ := t1 _ _ e1
    cases q1
    obtain rfl := hp.unique q2
    have hb1 := m1.has_old hr.good hb
    obtain ⟨a1, a2⟩ := addT_which m1.reach m1.has hb1
    obtain ⟨⟨h2, b⟩, e2⟩ := a1.2 hc
    have m2 := a2 _ _ e2
    obtain ⟨_, _, e3, -⟩ := act_which m2.reach m2.has hf
    exact ⟨_, by simp only [Linear.forward, e1, R.bind_ok, e2]; exact e3⟩

/-- The weights and the biases of the layers. -/
abbrev HasLayers (h : Heap T) (ls : List (Linear T)) (ss : List (List Nat × List Nat)) : Prop :=
  List.Forall₂ (fun l s => Has h l.weights s.1 ∧ Has h l.bias s.2) ls ss

theorem HasLayers.param {ls : List (Linear T)} {ss : List (List Nat × List Nat)} (hl : HasLayers h ls ss) :
    ∀ p ∈ (⟨ls⟩ : Mlp T).params, ∃ s, Has h p s := by
  intro p hp
  simp only [Mlp.params, List.mem_flatMap, Linear.params, List.mem_cons, List.not_mem_nil, or_false] at hp
  obtain ⟨l, hm, hp⟩ := hp
  obtain ⟨s, -, h1, h2⟩ := forall₂_mem_left hl hm
  rcases hp with rfl | rfl
  · exact ⟨_, h1⟩
  · exact ⟨_, h2⟩

theorem forward_which : ∀ {ls : List (Linear T)} {h : Heap T} {x : Nat} {s : List Nat} {ss : List (List Nat × List Nat)}, Reachable h →
    (∀ l ∈ ls, StdAct l.activation) → Has h x s → HasLayers h ls ss →
    (∀ h' r, (⟨ls⟩ : Mlp T).forward h x = .ok (h', r) → ∃ s' c, Made h (x :: (⟨ls⟩ : Mlp T).params) h' r s' c ∧
      ∀ y, Trainable s ss y ↔ c ∧ Compatible s' y) ∧
    ∀ y, Trainable s ss y → ∃ q, (⟨ls⟩ : Mlp T).forward h x = .ok q := by
  intro ls
  induction ls with
  | nil =>
    intro h x s ss hr _ hx hl
    cases hl
    refine ⟨fun h' r e => ?_, fun y _ => ⟨_, rfl⟩⟩
    cases e
    refine ⟨s, True, ⟨⟨[], by simp⟩, hr, hx, by simp [Feeds, Mlp.params], by simp [Mlp.params]⟩, fun y => ⟨?_, ?_⟩⟩
    · rintro ⟨h1⟩
      exact ⟨trivial, ‹_›⟩
    · exact fun h1 => .target h1.2
  | cons l ls ih =>
    intro h x s ss hr hf hx hl
    rcases hl with _ | @⟨_, ⟨sw, sb⟩, _, ss, ⟨hw, hb⟩, hl⟩
    obtain ⟨l1, l2⟩ := layer_which hr (hf l (by simp)) hx hw hb
    have hcons : (⟨l :: ls⟩ : Mlp T).forward h x = l.forward h x >>= fun p => (⟨ls⟩ : Mlp T).forward p.1 p.2 := by
      rw [Mlp.forward, List.foldlM_cons]
      rfl
    rw [hcons]
    refine ⟨fun h' r e => ?_, fun y ht => ?_⟩
    · rw [R.bind_eq_ok] at e
      obtain ⟨⟨h1, z⟩, e1, e2⟩ := e
      obtain ⟨k, n, p, rfl, hp, hc, m1⟩ := l1 _ _ e1
      have hl1 : HasLayers h1 ls ss := hl.imp fun _ _ h2 => ⟨m1.has_old hr.good h2.1, m1.has_old hr.good h2.2⟩
      obtain ⟨s', c, m2, hc'⟩ := (ih m1.reach (fun l hm => hf l (by simp [hm])) m1.has hl1).1 _ _ e2
      refine ⟨s', _, m1.trans (ks := x :: (⟨l :: ls⟩ : Mlp T).params) hr.good m2 (by simp) ?_ ?_ ?_, fun y => ?_⟩
      · intro i hi
        refine ⟨?_, ?_⟩
        · simp only [Mlp.params, Linear.params, List.flatMap_cons, List.mem_cons, List.mem_append, List.not_mem_nil, or_false] at hi ⊢
          tauto
        · rcases List.mem_cons.1 hi with rfl | hi
          · exact ⟨_, hx⟩
          · exact HasLayers.param (ls := l :: ls) (ss := ([k, n], sb) :: ss) (.cons ⟨hw, hb⟩ hl) i hi
      · intro i hi
        simp only [Mlp.params, Linear.params, List.flatMap_cons, List.mem_cons, List.mem_append, List.not_mem_nil, or_false] at hi ⊢
        tauto
      · intro i hi
        simp only [Mlp.params, Linear.params, List.flatMap_cons, List.mem_cons, List.mem_append, List.not_mem_nil, or_false] at hi ⊢
        tauto
      · rw [trainable_cons hp hc, hc' y]
        tauto
    · obtain ⟨⟨h1, z⟩, e1⟩ := l2 _ _ ht
      obtain ⟨k, n, p, rfl, hp, hc, m1⟩ := l1 _ _ e1
      have hl1 : HasLayers h1 ls ss := hl.imp fun _ _ h2 => ⟨m1.has_old hr.good h2.1, m1.has_old hr.good h2.2⟩
      obtain ⟨q, e2⟩ := (ih m1.reach (fun l hm => hf l (by simp [hm])) m1.has hl1).2 y ((trainable_cons hp hc).1 ht).2
      exact ⟨q, by rw [e1, R.bind_ok]; exact e2⟩

theorem trainLoss_which {mlp : Mlp T} {x y : Nat} {s sy : List Nat} {ss : List (List Nat × List Nat)} (hr : Reachable h)
    (hf : ∀ l ∈ mlp.layers, StdAct l.activation) (hx : Has h x s) (hy : Has h y sy) (hl : HasLayers h mlp.layers ss) :
    (∀ h' r, trainLoss mlp h x y = .ok (h', r) → Made h (x :: y :: mlp.params) h' r [] (Trainable s ss sy) ∧
      h.length ≤ r ∧ ∃ n i, h'[r]? = some n ∧ n.gradFn = some ⟨[i], .sum⟩) ∧
    (Trainable s ss sy → ∃ q, trainLoss mlp h x y = .ok q) := by
  obtain ⟨f1, f2⟩ := forward_which hr hf hx hl
  have hps : ∀ i ∈ x :: y :: mlp.params, ∃ s, Has h i s := by
    intro i hi
    simp only [List.mem_cons] at hi
    rcases hi with rfl | rfl | hi
    · exact ⟨_, hx⟩
    · exact ⟨_, hy⟩
    · exact hl.param i hi
  refine ⟨fun h' r e => ?_, fun ht => ?_⟩
  · simp only [trainLoss, R.bind_eq_ok, Prod.exists] at e
    obtain ⟨h1, a, e1, h3, b, e2, h4, d, e3, e4⟩ := e
    simp only [subT, R.bind_eq_ok, Prod.exists] at e2
    obtain ⟨h2, b', e5, e6⟩ := e2
    obtain ⟨s', c, m1, hc⟩ := f1 _ _ e1
    have hy1 := m1.has_old hr.good hy
    obtain ⟨_, _, e5', m2⟩ := negT_which m1.reach hy1
    rw [e5] at e5'
    cases e5'
    have ha2 := m2.has_old m1.reach.good m1.has
    obtain ⟨a1, a2⟩ := addT_which m2.reach ha2 m2.has
    have hcy := a1.1 ⟨_, e6⟩
    have m3 := a2 _ _ e6
    obtain ⟨_, _, e3', m4⟩ := absT_which m3.reach m3.has
    rw [e3] at e3'
    cases e3'
    obtain ⟨_, _, n, e4', m5, hn, hd⟩ := sumT_which m4.reach m4.has
    rw [e4] at e4'
    cases e4'
    have hlen : h.length ≤ r := by
      obtain ⟨_, _, -, -, -, rfl⟩ := sumT_inv e4
      obtain ⟨_, rfl⟩ := m1.append
      obtain ⟨_, rfl⟩ := m2.append
      obtain ⟨_, rfl⟩ := m3.append
      obtain ⟨_, rfl⟩ := m4.append
      simp only [List.length_append]
      omega
    refine ⟨?_, hlen, n, d, hn, hd⟩
    have m23 := m2.trans (ks := [y, a]) m1.reach.good m3 (by simp) (by
      intro i hi
      simp only [List.mem_cons, List.not_mem_nil, or_false] at hi
      rcases hi with rfl | rfl
      · exact ⟨by simp, _, hy1⟩
      · exact ⟨by simp, _, m1.has⟩) (by simp) (by
      intro i hi
      simp only [List.mem_cons, List.not_mem_nil, or_false] at hi ⊢
      tauto)
    have m13 := m1.trans (ks := x :: y :: mlp.params) hr.good m23 (by simp) (fun i hi => ⟨by
      simp only [List.mem_cons, List.not_mem_nil, or_false] at hi ⊢
      tauto, hps i hi⟩) (fun i hi => by
      simp only [List.mem_cons] at hi ⊢
      tauto) (fun i hi => by
      simp only [List.mem_cons, List.not_mem_nil, or_false] at hi ⊢
      tauto)
    have m14 := m13.trans (ks := x :: y :: mlp.params) hr.good m4 (by simp) (fun i hi => ⟨.inl hi, hps i hi⟩) (fun i hi => hi)
      (fun j hj => .inl (by simpa using hj))
    refine (m14.trans (ks := x :: y :: mlp.params) hr.good m5 (by simp) (fun i hi => ⟨.inl hi, hps i hi⟩) (fun i hi => hi)
      (fun j hj => .inl (by simpa using hj))).congr ?_
    rw [hc sy]
    tauto
  · obtain ⟨⟨h1, a⟩, e1⟩ := f2 _ ht
    obtain ⟨s', c, m1, hc⟩ := f1 _ _ e1
    have hy1 := m1.has_old hr.good hy
    obtain ⟨h2, b, e2, m2⟩ := negT_which m1.reach hy1
    have ha2 := m2.has_old m1.reach.good m1.has
    obtain ⟨a1, a2⟩ := addT_which m2.reach ha2 m2.has
    obtain ⟨⟨h3, d⟩, e3⟩ := a1.2 ((hc sy).1 ht).2
    have m3 := a2 _ _ e3
    obtain ⟨h4, f, e4, m4⟩ := absT_which m3.reach m3.has
    obtain ⟨h5, g, n, e5, -⟩ := sumT_which m4.reach m4.has
    exact ⟨(h5, g), by simp only [trainLoss, subT, e1, R.bind_ok, e2, e3, e4, e5]⟩

theorem backward_which (hr : Reachable h) {l : Nat} (hl : Has h l []) {n : Node T} {i : Nat} (hn : h[l]? = some n)
    (hd : n.gradFn = some ⟨[i], .sum⟩) : (∃ h', backward h l = .ok h') ↔ Fine h l := by
  obtain ⟨n', hn', h1, h2, -⟩ := hl.node
  rw [hn] at hn'
  cases hn'
  have hone : n.val.array.length = 1 := by rw [h2, h1]; rfl
  rw [C39_exact h hr l n.val ⟨[i], .sum⟩ (dataOf_eq.2 ⟨n, hn, rfl⟩) hone (historyOf_eq.2 ⟨n, hn, hd⟩) (by simp) (by
    intro a w ha hw
    obtain ⟨q, hq, hs⟩ := hl.sturdy a (.inr ha)
    rw [dataOf, hq] at hw
    cases hw
    exact ⟨hs.wf, hs.pos, fun g hg => hs.gradTakes hq q g hq hg⟩)]
  constructor
  · rintro ⟨-, -, hc⟩ a d ha hda
    rcases ha with rfl | ha
    · rw [historyOf, hn] at hda
      have : n.gradFn = some d := Option.some.inj hda
      rw [hd] at this
      cases this
      exact cond_other (by simp) (by simp)
    · exact hc a d ha hda
  · exact fun hf => ⟨by simp, by simp, fun a d ha hda => hf a d (.inr ha) hda⟩

/-- What training needs of the tensors `data` and of the parameters. -/
structure Trainee (h : Heap T) (data params : List Nat) : Prop where
  reach : Reachable h
  settled : ∀ t ∈ data ++ params, Settled h t
  fits : ∀ p ∈ params, ∀ v g, dataOf h p = some v → gradOf h p = some g → g.shape = v.shape ∧ WF g

theorem Trainee.node {data params : List Nat} (ht : Trainee h data params) {t : Nat} (hm : t ∈ data ++ params) : ∃ n, h[t]? = some n ∧ Sturdy h n := by
  obtain ⟨n, h1, h2, -⟩ := ht.settled t hm t (.inl rfl)
  exact ⟨n, h1, h2⟩

theorem Trainee.lt {data params : List Nat} (ht : Trainee h data params) {t : Nat} (hm : t ∈ data ++ params) : t < h.length := by
  obtain ⟨n, h1, -⟩ := ht.node hm
  exact getElem?_lt h1

theorem Trainee.has {data params : List Nat} (ht : Trainee h data params) {t : Nat} (hm : t ∈ data ++ params) {s : List Nat}
    (hs : HasShape h t s) : Has h t s :=
  ⟨hs, fun a ha => by
    obtain ⟨m, h1, h2, -⟩ := ht.settled t hm a ha
    exact ⟨m, h1, h2⟩⟩

theorem Trainee.fine {data params : List Nat} (ht : Trainee h data params) {t : Nat} (hm : t ∈ data ++ params) : Fine h t := by
  intro a d ha hd
  obtain ⟨m, h1, h2, h3⟩ := ht.settled t hm a ha
  obtain ⟨n, hn, hd⟩ := historyOf_eq.1 hd
  rw [h1] at hn
  cases hn
  exact cond_other (h3 d hd).1 (h3 d hd).2

theorem layerShapes_iff {mlp : Mlp T} {ss : List (List Nat × List Nat)} (hlen : mlp.layers.length = ss.length) :
    LayerShapes h mlp ss ↔ List.Forall₂ (HasShape h) mlp.params (ss.flatMap fun s => [s.1, s.2]) := by
  obtain ⟨ls⟩ := mlp
  simp only [LayerShapes, Mlp.params, Linear.params] at hlen ⊢
  induction ls generalizing ss with
  | nil => cases ss with
    | nil => simp
    | cons => simp at hlen
  | cons l ls ih => cases ss with
    | nil => simp at hlen
    | cons s ss => simp only [List.flatMap_cons, List.cons_append, List.nil_append, List.forall₂_cons, ih (by simpa using hlen), and_assoc]

/-- After `backward` and with a gradient for every parameter, the rest of a step succeeds, and keeps what training needs. -/
theorem step_assemble {mlp : Mlp T} {data : List Nat} {x y l : Nat} {lr : T} {h1 h2 : Heap T} (ht : Trainee h data mlp.params) (hx : x ∈ data)
    (hy : y ∈ data) (hu : ∀ l ∈ mlp.layers, StdAct l.activation)
    (e1 : trainLoss mlp h x y = .ok (h1, l)) (hs : ∃ ns, h1 = h ++ ns) (r1 : Reachable h1)
    (e2 : backward h1 l = .ok h2) (hanc : ∀ p ∈ mlp.params, Ancestor h1 p l) : ∃ h' mlp', trainStep mlp h x y lr = .ok (h', mlp') ∧
      Trainee h' data mlp'.params ∧ mlp'.layers.map (·.activation) = mlp.layers.map (·.activation) ∧
      (∀ t ∈ data, dataOf h' t = dataOf h t) ∧
      List.Forall₂ (fun p q => ∃ v w, dataOf h p = some v ∧ dataOf h' q = some w ∧ v.shape = w.shape) mlp.params mlp'.params := by
  obtain ⟨ns, rfl⟩ := hs
  have hr := ht.reach
  have hlt : ∀ t ∈ data ++ mlp.params, t < h.length := fun t hm => ht.lt hm
  have hmp : ∀ {q}, q ∈ mlp.params → q ∈ data ++ mlp.params := fun hq => by simp [hq]
  have hmd : ∀ {q}, q ∈ data → q ∈ data ++ mlp.params := fun hq => by simp [hq]
  have k12 := (sturdy_append h ns).trans (sturdy_backward r1 e2)
  have r2 : Reachable h2 := r1.run (ops := [.backward l]) (by simp [runOps, Op.run, e2])
  have hlt2 : ∀ t ∈ data ++ mlp.params, t < h2.length := fun t ht => (hlt t ht).trans_le k12.frame.len
  have k123 := k12.trans (sturdy_append h2 [leafNode (Raw.scalar lr)])
  have r3 : Reachable (h2 ++ [leafNode (Raw.scalar lr)]) := r2.run (ops := [.scalar lr]) rfl
  have pok : ∀ q ∈ mlp.params, ParamOk (h2 ++ [leafNode (Raw.scalar lr)]) q := by
    intro q hq
    have hql := hlt q (hmp hq)
    obtain ⟨m, hm, st⟩ := ht.node (hmp hq)
    refine ⟨m.val, by rw [k123.frame.dataOf hql]; exact dataOf_eq.2 ⟨m, hm, rfl⟩, st.wf, st.pos, ?_⟩
    rw [gradOf_append r2.good (hlt2 q (hmp hq))]
    refine backward_fits r1.good e2 (by rw [List.getElem?_append_left hql, hm]) ?_
    rw [gradOf_append hr.good hql]
    exact fun g hg => ht.fits q hq m.val g (dataOf_eq.2 ⟨m, hm, rfl⟩) hg
  have hsc : dataOf (h2 ++ [leafNode (Raw.scalar lr)]) h2.length = some (Raw.scalar lr) := by simp [dataOf, leafNode]
  obtain ⟨h4, b', f3, ⟨ns', rfl⟩, news, acts⟩ := C47_step mlp (h2 ++ [leafNode (Raw.scalar lr)]) h2.length lr hsc pok fun q hq => by
    rw [gradOf_append r2.good (hlt2 q (hmp hq))]
    obtain ⟨w, hw⟩ := (C36_backward _ _ l r1 e2 q ((hlt q (hmp hq)).trans_le (by simp))).2.2.2 (hanc q hq)
    rw [hw]
    exact nofun
  obtain ⟨o4, q4⟩ := sgdStep_ops f3
  have r4 := r3.run q4
  have hlt4 : ∀ t ∈ data ++ mlp.params, t < (h2 ++ [leafNode (Raw.scalar lr)] ++ ns').length := fun t ht =>
    (hlt2 t ht).trans_le (by simp)
  obtain ⟨h5, f4⟩ : ∃ h5, zeroGrad (h2 ++ [leafNode (Raw.scalar lr)] ++ ns') y = .ok h5 := by
    simp only [zeroGrad, Heap.node_eq_ok.2 (List.getElem?_eq_getElem (hlt4 y (hmd hy))), R.bind_ok]
    exact ⟨_, rfl⟩
  have k5 := sturdy_zeroGrad f4
  have r5 : Reachable h5 := r4.run (ops := [.zeroGrad y]) (by rw [runOps_cons]; simp only [Op.run, f4]; rfl)
  obtain ⟨h6, f5⟩ : ∃ h6, zeroGrad h5 x = .ok h6 := by
    simp only [zeroGrad, Heap.node_eq_ok.2 (List.getElem?_eq_getElem ((hlt4 x (hmd hx)).trans_le k5.frame.len)), R.bind_ok]
    exact ⟨_, rfl⟩
  have r6 : Reachable h6 := r5.run (ops := [.zeroGrad x]) (by rw [runOps_cons]; simp only [Op.run, f5]; rfl)
  have k46 := k5.trans (sturdy_zeroGrad f5)
  have k36 := (sturdy_append (h2 ++ [leafNode (Raw.scalar lr)]) ns').trans k46
  have new := sgdParams_settled r3.good hsc (fun p hm => ⟨(ht.settled p (hmp hm)).keep hr.good k123 (hlt p (hmp hm)), pok p hm⟩) (sgdStep_inv f3)
  refine ⟨h6, b', ?_, ⟨r6, fun t hm => ?_, fun q hq v g hv hg => ?_⟩, acts, fun t hm => ?_, ?_⟩
  · simp only [trainStep, e1, R.bind_ok, e2, Heap.leaf, Heap.alloc]
    rw [f3]
    simp only [R.bind_ok, f4, f5]
    rfl
  · rcases List.mem_append.1 hm with hm | hm
    · exact (ht.settled t (hmd hm)).keep hr.good (k123.trans k36) (hlt t (hmd hm))
    · obtain ⟨p, -, hs, _, w, -, hw, -⟩ := forall₂_mem_right new hm
      obtain ⟨_, hw, -⟩ := dataOf_eq.1 hw
      exact hs.keep r4.good k46 (getElem?_lt hw)
  · obtain ⟨p, -, _, _, -, -, -, hd, hn⟩ := forall₂_mem_right news hq
    obtain ⟨m, hm, -⟩ := dataOf_eq.1 hd
    have hl := getElem?_lt hm
    have := zeroGrad_other r5.good f5 (hl.trans_le k5.frame.len) (zeroGrad_other r4.good f4 hl hn)
    rw [hg] at this
    cases this
  · exact (k123.trans k36).frame.dataOf (hlt t (hmd hm))
  · have hp := fun p hm => hlt p (hmp (q := p) hm)
    clear news e1 acts f3 hanc pok hlt hlt2 hlt4 hmp hmd ht
    generalize mlp.params = ps, b'.params = qs at new hp
    induction new with
    | nil => exact .nil
    | cons h1 _ ih =>
      refine .cons ?_ (ih fun p hm => hp p (by simp [hm]))
      obtain ⟨-, v, w, t1, t2, t3⟩ := h1
      rw [k123.frame.dataOf (hp _ (by simp))] at t1
      obtain ⟨m', hm', -⟩ := dataOf_eq.1 t2
      exact ⟨v, w, t1, by rw [k46.frame.dataOf (getElem?_lt hm')]; exact t2, t3⟩

theorem step_trains {mlp : Mlp T} {data : List Nat} {x y : Nat} {s sy : List Nat} {ss : List (List Nat × List Nat)} (lr : T)
    (ht : Trainee h data mlp.params) (hx : x ∈ data) (hy : y ∈ data) (ha : ∀ l ∈ mlp.layers, StdAct l.activation)
    (hxs : HasShape h x s) (hys : HasShape h y sy) (hl : LayerShapes h mlp ss) :
    ((∃ r, trainStep mlp h x y lr = .ok r) → Trainable s ss sy) ∧ (Trainable s ss sy → ∃ h' mlp', trainStep mlp h x y lr = .ok (h', mlp') ∧
      Trainee h' data mlp'.params ∧ mlp'.layers.map (·.activation) = mlp.layers.map (·.activation) ∧
      (∀ t ∈ data, dataOf h' t = dataOf h t) ∧ LayerShapes h' mlp' ss) := by
  have mem : ∀ l ∈ mlp.layers, l.weights ∈ data ++ mlp.params ∧ l.bias ∈ data ++ mlp.params := by
    intro l hm
    simp only [Mlp.params, List.mem_append, List.mem_flatMap, Linear.params]
    exact ⟨.inr ⟨l, hm, by simp⟩, .inr ⟨l, hm, by simp⟩⟩
  have hl' : HasLayers h mlp.layers ss := by
    unfold LayerShapes at hl
    generalize mlp.layers = ls at hl mem
    clear ha
    induction hl with
    | nil => exact .nil
    | cons h1 _ ih =>
      obtain ⟨m1, m2⟩ := mem _ List.mem_cons_self
      exact .cons ⟨ht.has m1 h1.1, ht.has m2 h1.2⟩ (ih fun l hm => mem l (by simp [hm]))
  obtain ⟨t1, t2⟩ := trainLoss_which ht.reach ha (ht.has (by simp [hx]) hxs) (ht.has (by simp [hy]) hys) hl'
  constructor
  · rintro ⟨r, e⟩
    simp only [trainStep, R.bind_eq_ok, Prod.exists] at e
    obtain ⟨h1, l, e1, h2, e2, -⟩ := e
    obtain ⟨m, -, n, i, hn, hd⟩ := t1 _ _ e1
    exact (m.fine.1 ((backward_which m.reach m.has hn hd).1 ⟨h2, e2⟩)).1
  · intro htr
    obtain ⟨⟨h1, l⟩, e1⟩ := t2 htr
    obtain ⟨m, hlen, n, i, hn, hd⟩ := t1 _ _ e1
    obtain ⟨h2, e2⟩ := (backward_which m.reach m.has hn hd).2 (m.fine.2 ⟨htr, fun i hi => ht.fine (by
      simp only [List.mem_cons] at hi
      rcases hi with rfl | rfl | hi
      · simp [hx]
      · simp [hy]
      · simp [hi])⟩)
    obtain ⟨h', mlp', q1, q2, q3, q4, q5⟩ := step_assemble (lr := lr) ht hx hy ha e1 m.append m.reach e2 fun p hm => by
      rcases m.feeds p (by simp [hm]) with rfl | ha
      · exact absurd (ht.lt (t := p) (by simp [hm])) (Nat.not_lt.2 hlen)
      · exact ha
    refine ⟨h', mlp', q1, q2, q3, q4, ?_⟩
    have hlen : mlp'.layers.length = mlp.layers.length := by simpa using congrArg List.length q3
    rw [layerShapes_iff (hlen.trans hl.length_eq)]
    rw [layerShapes_iff hl.length_eq] at hl
    generalize mlp.params = ps, mlp'.params = qs, (ss.flatMap fun s => [s.1, s.2]) = zs at hl q5
    clear q1 q2 q3 q4 hl' t1 t2 htr e1 m e2 mem hlen
    induction q5 generalizing zs with
    | nil => cases hl; exact .nil
    | cons h1 _ ih =>
      cases hl with
      | cons h3 h4 =>
        refine .cons ?_ (ih _ h4)
        obtain ⟨v, w, u1, u2, u3⟩ := h1
        obtain ⟨v', u4, u5⟩ := h3
        rw [u1] at u4
        cases u4
        exact ⟨w, u2, u3.symm.trans u5⟩

theorem step_which {mlp : Mlp T} {x y : Nat} {s sy : List Nat} {ss : List (List Nat × List Nat)} (lr : T) (hr : Reachable h)
    (ha : ∀ l ∈ mlp.layers, StdAct l.activation) (hf : Fresh h (x :: y :: mlp.params)) (hp : Proper h (x :: y :: mlp.params))
    (hx : HasShape h x s) (hy : HasShape h y sy) (hl : LayerShapes h mlp ss) :
    (∃ r, trainStep mlp h x y lr = .ok r) ↔ Trainable s ss sy := by
  have ht : Trainee h [x, y] mlp.params := ⟨hr, settled_of_fresh hr.good hf hp, fun p hm v g _ hg => by
    rw [hf.noGrad p (by simp [hm])] at hg
    cases hg⟩
  obtain ⟨h1, h2⟩ := step_trains lr ht (x := x) (y := y) (by simp) (by simp) ha hx hy hl
  exact ⟨h1, fun h3 => by
    obtain ⟨h', mlp', e, -⟩ := h2 h3
    exact ⟨_, e⟩⟩

end RL
