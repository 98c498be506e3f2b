import Verif.Lemmas.WhichTrain

/-!
# Training on a sequence of batches
-/

namespace RL

open Spec

variable {T : Type} [Zero T] [One T] [Add T] [Mul T] [Sub T] [Neg T] [LT T] [DecidableLT T] [LE T] [DecidableLE T] [RealFn T]

theorem Spec.Loaded.trainee {h : Heap T} {data params : List Nat} (hr : Reachable h) (hl : Loaded h (data ++ params)) : Trainee h data params := by
  refine ⟨hr, fun t ht s hs => ?_, fun p hp v g hv hg => ?_⟩
  · obtain ⟨h1, v, h2, h3, h4, h5⟩ := hl t ht
    obtain ⟨n, hn, rfl⟩ := dataOf_eq.1 h2
    have hd : n.gradFn = none := by
      rw [historyOf, hn] at h1
      exact Option.some.inj h1
    rcases Spec.Feeds.cases hs hn with rfl | ⟨d, hd', -⟩
    · refine ⟨n, hn, ⟨h3, h4, fun o ho => ?_⟩, by rw [hd]; exact nofun⟩
      obtain ⟨m, hm⟩ : ∃ m, h[o]? = some m := ⟨_, List.getElem?_eq_getElem ((hr.good s n hn).grad o ho)⟩
      obtain ⟨h6, h7⟩ := h5 m.val (gradOf_some hn ho hm)
      exact ⟨m, hm, h7, .inl h6⟩
    · rw [hd] at hd'
      cases hd'
  · obtain ⟨h1, w, h2, h3, h4, h5⟩ := hl p (by simp [hp])
    rw [hv] at h2
    cases h2
    exact h5 g hg

theorem hasShape_of {h : Heap T} {data params : List Nat} (ht : Trainee h data params) {t : Nat} (hm : t ∈ data) : HasShape h t (shapeOf h t) := by
  obtain ⟨n, hn, -⟩ := ht.node (t := t) (by simp [hm])
  exact ⟨n.val, dataOf_eq.2 ⟨n, hn, rfl⟩, by simp [shapeOf, dataOf, hn]⟩

theorem each_which : ∀ (bs : List (Nat × Nat × T)) {h : Heap T} {mlp : Mlp T} {data : List Nat} {ss : List (List Nat × List Nat)},
    Trainee h data mlp.params → (∀ l ∈ mlp.layers, StdAct l.activation) → LayerShapes h mlp ss → (∀ b ∈ bs, b.1 ∈ data ∧ b.2.1 ∈ data) →
    ((∃ r, trainEach mlp h bs = .ok r) ↔ ∀ b ∈ bs, Trainable (shapeOf h b.1) ss (shapeOf h b.2.1)) ∧
    ∀ h' mlp', trainEach mlp h bs = .ok (h', mlp') → LayerShapes h' mlp' ss ∧ (∀ t ∈ data, dataOf h' t = dataOf h t) := by
  intro bs
  induction bs with
  | nil =>
    intro h mlp data ss ht ha hl _
    refine ⟨⟨fun _ b hb => by simp at hb, fun _ => ⟨_, rfl⟩⟩, fun h' mlp' e => ?_⟩
    cases e
    exact ⟨hl, fun _ _ => rfl⟩
  | cons b bs ih =>
    obtain ⟨x, y, lr⟩ := b
    intro h mlp data ss ht ha hl hb
    obtain ⟨hx, hy⟩ := hb (x, y, lr) (by simp)
    obtain ⟨s1, s2⟩ := step_trains lr ht hx hy ha (hasShape_of ht hx) (hasShape_of ht hy) hl
    have key : ∀ {h1 mlp1}, trainStep mlp h x y lr = .ok (h1, mlp1) → Trainee h1 data mlp1.params ∧
        mlp1.layers.map (·.activation) = mlp.layers.map (·.activation) ∧ (∀ t ∈ data, dataOf h1 t = dataOf h t) ∧ LayerShapes h1 mlp1 ss := by
      intro h1 mlp1 e1
      obtain ⟨_, _, e2, q⟩ := s2 (s1 ⟨_, e1⟩)
      rw [e1] at e2
      cases e2
      exact q
    have sh : ∀ {h1 : Heap T}, (∀ t ∈ data, dataOf h1 t = dataOf h t) → ∀ b ∈ bs, shapeOf h1 b.1 = shapeOf h b.1 ∧ shapeOf h1 b.2.1 = shapeOf h b.2.1 :=
      fun hd b hm => ⟨by rw [shapeOf, hd _ (hb b (by simp [hm])).1]; rfl, by rw [shapeOf, hd _ (hb b (by simp [hm])).2]; rfl⟩
    refine ⟨⟨?_, fun hall => ?_⟩, fun h' mlp' e => ?_⟩
    · rintro ⟨r, e⟩
      rw [trainEach, R.bind_eq_ok] at e
      obtain ⟨⟨h1, mlp1⟩, e1, e2⟩ := e
      obtain ⟨q1, q2, q3, q4⟩ := key e1
      have := (ih q1 (stdAct_of_map q2 ha) q4 fun b hm => hb b (by simp [hm])).1.1 ⟨r, e2⟩
      intro b hm
      rcases List.mem_cons.1 hm with rfl | hm
      · exact s1 ⟨_, e1⟩
      · have h2 := this b hm
        rwa [(sh q3 b hm).1, (sh q3 b hm).2] at h2
    · obtain ⟨h1, mlp1, e1, q1, q2, q3, q4⟩ := s2 (hall (x, y, lr) (by simp))
      obtain ⟨r, e2⟩ := (ih q1 (stdAct_of_map q2 ha) q4 fun b hm => hb b (by simp [hm])).1.2 fun b hm => by
        rw [(sh q3 b hm).1, (sh q3 b hm).2]
        exact hall b (by simp [hm])
      exact ⟨r, by rw [trainEach, e1, R.bind_ok]; exact e2⟩
    · rw [trainEach, R.bind_eq_ok] at e
      obtain ⟨⟨h1, mlp1⟩, e1, e2⟩ := e
      obtain ⟨q1, q2, q3, q4⟩ := key e1
      obtain ⟨t1, t2⟩ := (ih q1 (stdAct_of_map q2 ha) q4 fun b hm => hb b (by simp [hm])).2 _ _ e2
      exact ⟨t1, fun t hm => (t2 t hm).trans (q3 t hm)⟩

end RL
