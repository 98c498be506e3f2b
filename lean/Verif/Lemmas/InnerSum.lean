import Verif.Lemmas.Tangent2

/-!
# Losses with `sum`s inside (C29)
-/

namespace RL

open Spec

theorem Spec.Ancestor.last {T : Type} {h : Heap T} {s i : Nat} (ha : Ancestor h s i) : ∃ a, IsInput h a i ∧ Feeds h s a := by
  cases ha with
  | single h1 => exact ⟨s, h1, Or.inl rfl⟩
  | tail h1 h2 => exact ⟨_, h2, Or.inr h1⟩

/-- what the `sum`s add -/
noncomputable def sval (h : Heap ℝ) (x : Nat) (τ : Nat → List Nat → ℝ) : Nat → Nat → ℝ
  | 0, _ => 0
  | fuel + 1, i =>
    if i = x then 0 else
    match historyOf h i with
    | some (some ⟨[a], .sum⟩) => sval h x τ fuel a + ((allIndices (shapeOf h a)).map (τ a)).sum
    | some (some d) => (d.inputs.map (sval h x τ fuel)).sum
    | _ => 0

theorem sval_fuel {h : Heap ℝ} (hg : h.Good) (x : Nat) (τ : Nat → List Nat → ℝ) : ∀ (f f' i : Nat), i < f → i < f' →
    sval h x τ f i = sval h x τ f' i := by
  intro f
  induction f with
  | zero => intro f' i hi; omega
  | succ f ih =>
    intro f' i hi hi'
    obtain ⟨f', rfl⟩ : ∃ k, f' = k + 1 := ⟨f' - 1, by omega⟩
    have old : ∀ {d : Deriv}, historyOf h i = some (some d) → ∀ a ∈ d.inputs, sval h x τ f a = sval h x τ f' a := by
      intro d hh a ha
      simp only [historyOf, Option.map_eq_some_iff] at hh
      obtain ⟨nd, hnd, hd⟩ := hh
      have := (hg i nd hnd).older d hd a ha
      exact ih f' a (by omega) (by omega)
    unfold sval
    by_cases hx : i = x
    · simp [hx]
    · simp only [hx, if_false]
      split
      · next hh => rw [old hh _ (by simp)]
      · next d hh => rw [List.map_congr_left fun a ha => old hh a ha]
      · rfl

theorem sweeps_exists {h : Heap ℝ} (hg : h.Good) (l x : Nat) (e : List Nat) : ∃ τ ε, Sweeps h l x e τ ε := by
  obtain ⟨h1, h2⟩ := tval_rules false hg l x e
  refine ⟨_, fun i => sval h x (fun i => tval false h x e (i + 1) i) (i + 1) i, h1, ?_, ?_, ?_, ?_, ?_⟩
  · intro i a _ hx hh
    simpa using h2 i a hx hh
  · simp [sval]
  · intro i _ hx hh
    simp [sval, hx, hh]
  all_goals
    have old : ∀ {i : Nat} {d : Deriv}, historyOf h i = some (some d) → ∀ a ∈ d.inputs, sval h x (fun i => tval false h x e (i + 1) i) i a =
        sval h x (fun i => tval false h x e (i + 1) i) (a + 1) a := by
      intro i d hh a ha
      simp only [historyOf, Option.map_eq_some_iff] at hh
      obtain ⟨nd, hnd, hd⟩ := hh
      exact sval_fuel hg x _ _ _ _ ((hg i nd hnd).older d hd a ha) (by omega)
  · intro i d _ hx hh hk
    rw [sval]
    simp only [hx, if_false, hh]
    split
    · next hd => cases hd; exact absurd rfl hk
    · next hd => cases hd; rw [List.map_congr_left fun a ha => old hh a ha]
    · next h3 => exact absurd rfl (h3 d)
  · intro i a _ hx hh
    rw [sval]
    simp only [hx, if_false, hh]
    rw [old hh a (by simp)]

theorem sweeps_unique {h : Heap ℝ} {l x : Nat} {e : List Nat} {τ τ' : Nat → List Nat → ℝ} {ε ε' : Nat → ℝ} (hg : h.Good) (hl : RealLoss h l)
    (hτ : Sweeps h l x e τ ε) (hτ' : Sweeps h l x e τ' ε') :
    ∀ i, Feeds h i l → (∀ idx, InRange (shapeOf h i) idx → τ i idx = τ' i idx) ∧ ε i = ε' i := by
  intro i
  induction i using Nat.strong_induction_on with
  | _ i ih =>
  intro hi
  by_cases hx : i = x
  · subst hx
    exact ⟨fun idx hidx => by rw [hτ.self idx hidx, hτ'.self idx hidx], by rw [hτ.stop, hτ'.stop]⟩
  have hpass : ∀ d, historyOf h i = some (some d) → d.kind ≠ .sum → ε i = ε' i := by
    intro d hh hk
    rw [hτ.pass i d hi hx hh hk, hτ'.pass i d hi hx hh hk]
    refine congrArg _ (List.map_congr_left fun a ha => ?_)
    simp only [historyOf, Option.map_eq_some_iff] at hh
    obtain ⟨nd, hnd, hd⟩ := hh
    exact (ih a ((hg i nd hnd).older d hd a ha) (Or.inr (hi.input hnd hd ha))).2
  cases nodeForm hg hl hi with
  | leaf hh => exact ⟨fun idx hidx => by rw [hτ.leaf i hi hx hh idx hidx, hτ'.leaf i hi hx hh idx hidx],
      by rw [hτ.none i hi hx hh, hτ'.none i hi hx hh]⟩
  | @add a b t u v hh ht hu hv hai hbi fa fb hc hsh _ =>
    obtain ⟨_, pt⟩ := hl.data a t (Or.inr fa) ht
    obtain ⟨_, pu⟩ := hl.data b u (Or.inr fb) hu
    refine ⟨fun idx hidx => ?_, hpass _ hh (by simp)⟩
    obtain ⟨h1, h2⟩ := bproj_mem pt pu hc (idx := idx) (by rw [← hsh, ← shapeOf_data hv]; exact hidx)
    rw [hτ.add i a b hi hx hh idx hidx, hτ'.add i a b hi hx hh idx hidx, shapeOf_data ht, shapeOf_data hu,
      (ih a hai (Or.inr fa)).1 _ (shapeOf_data ht ▸ h1), (ih b hbi (Or.inr fb)).1 _ (shapeOf_data hu ▸ h2)]
  | @unary a k t v hk hh ht hv hai fa _ hsh _ =>
    refine ⟨fun idx hidx => ?_, hpass _ hh (by rintro rfl; simp [isUnary] at hk)⟩
    rw [hτ.unary hk hi hx hh ht hidx, hτ'.unary hk hi hx hh ht hidx,
      (ih a hai (Or.inr fa)).1 idx (by rw [shapeOf_data ht, ← hsh, ← shapeOf_data hv]; exact hidx)]
  | @bmm a b m k n t u v _ hh ht hu hv hai hbi fa fb hts hus hsh _ =>
    refine ⟨fun idx hidx => ?_, hpass _ hh (by simp)⟩
    rw [shapeOf_data hv, hsh] at hidx
    obtain ⟨r, c, rfl⟩ : ∃ r c, idx = [r, c] := List.length_eq_two.1 hidx.length_eq.symm
    obtain ⟨hr, hc⟩ := inRange2.1 hidx
    have sa := (shapeOf_data ht).trans hts
    have sb := (shapeOf_data hu).trans hus
    rw [hτ.bmm i a b hi hx hh m k n sa sb r hr c hc, hτ'.bmm i a b hi hx hh m k n sa sb r hr c hc]
    refine Finset.sum_congr rfl fun j hj => ?_
    rw [Finset.mem_range] at hj
    have s1 := seg_inRange hr hj
    have s2 := seg_inRange hj hc
    have e1 : shuffled m k (τ a) r j = shuffled m k (τ' a) r j := (ih a hai (Or.inr fa)).1 _ (by rw [sa]; exact inRange2.2 s1)
    have e2 : shuffled k n (τ b) j c = shuffled k n (τ' b) j c := (ih b hbi (Or.inr fb)).1 _ (by rw [sb]; exact inRange2.2 s2)
    rw [e1, e2]
  | @dot a b t u v _ hh ht hu hv hai hbi fa fb hts hsh _ =>
    refine ⟨fun idx hidx => ?_, hpass _ hh (by simp)⟩
    rw [shapeOf_data hv, hsh] at hidx
    obtain rfl := inRange_one hidx
    rw [hτ.dot i a b hi hx hh, hτ'.dot i a b hi hx hh]
    refine allIndices_sum_congr fun idx hidx => ?_
    rw [(ih a hai (Or.inr fa)).1 idx hidx, (ih b hbi (Or.inr fb)).1 idx (by rw [shapeOf_data hu, ← hts, ← shapeOf_data ht]; exact hidx)]
  | @sum a t v hh ht hv hai fa hsh _ =>
    refine ⟨fun idx hidx => ?_, ?_⟩
    · rw [shapeOf_data hv, hsh] at hidx
      obtain rfl : idx = [] := List.length_eq_zero_iff.1 hidx.length_eq.symm
      rw [hτ.cut i a hi hx hh, hτ'.cut i a hi hx hh]
    · rw [hτ.sums i a hi hx hh, hτ'.sums i a hi hx hh, (ih a hai (Or.inr fa)).2]
      exact congrArg (_ + ·) (allIndices_sum_congr fun idx hidx => (ih a hai (Or.inr fa)).1 idx hidx)

/-- what does not depend on `x` has derivative 0 -/
theorem tangents_zero {h : Heap ℝ} {l x : Nat} {e : List Nat} {τ : Nat → List Nat → ℝ} (hg : h.Good) (hl : RealLoss h l)
    (hτ : Tangents h l x e τ) : ∀ i, Feeds h i l → ¬ Feeds h x i → ∀ idx, InRange (shapeOf h i) idx → τ i idx = 0 := by
  intro i
  induction i using Nat.strong_induction_on with
  | _ i ih =>
  intro hi hn idx hidx
  have hx : i ≠ x := fun h0 => hn (Or.inl h0.symm)
  have inp : ∀ {d : Deriv}, historyOf h i = some (some d) → ∀ a ∈ d.inputs, ¬ Feeds h x a := by
    intro d hh a ha hf
    simp only [historyOf, Option.map_eq_some_iff] at hh
    obtain ⟨nd, hnd, hd⟩ := hh
    have hia : IsInput h a i := ⟨nd, d, hnd, hd, ha⟩
    rcases hf with rfl | hf
    · exact hn (Or.inr (.single hia))
    · exact hn (Or.inr (hf.tail hia))
  cases nodeForm hg hl hi with
  | leaf hh => exact hτ.leaf i hi hx hh idx hidx
  | @add a b t u v hh ht hu hv hai hbi fa fb hc hsh _ =>
    obtain ⟨_, pt⟩ := hl.data a t (Or.inr fa) ht
    obtain ⟨_, pu⟩ := hl.data b u (Or.inr fb) hu
    obtain ⟨h1, h2⟩ := bproj_mem pt pu hc (idx := idx) (by rw [← hsh, ← shapeOf_data hv]; exact hidx)
    rw [hτ.add i a b hi hx hh idx hidx, shapeOf_data ht, shapeOf_data hu,
      ih a hai (Or.inr fa) (inp hh a (by simp)) _ (shapeOf_data ht ▸ h1), ih b hbi (Or.inr fb) (inp hh b (by simp)) _ (shapeOf_data hu ▸ h2), add_zero]
  | @unary a k t v hk hh ht hv hai fa _ hsh _ =>
    rw [hτ.unary hk hi hx hh ht hidx,
      ih a hai (Or.inr fa) (inp hh a (by simp)) idx (by rw [shapeOf_data ht, ← hsh, ← shapeOf_data hv]; exact hidx), mul_zero]
  | @bmm a b m k n t u v _ hh ht hu hv hai hbi fa fb hts hus hsh _ =>
    rw [shapeOf_data hv, hsh] at hidx
    obtain ⟨r, c, rfl⟩ : ∃ r c, idx = [r, c] := List.length_eq_two.1 hidx.length_eq.symm
    obtain ⟨hr, hc⟩ := inRange2.1 hidx
    have sa := (shapeOf_data ht).trans hts
    have sb := (shapeOf_data hu).trans hus
    rw [hτ.bmm i a b hi hx hh m k n sa sb r hr c hc]
    refine Finset.sum_eq_zero fun j hj => ?_
    rw [Finset.mem_range] at hj
    have s1 := seg_inRange hr hj
    have s2 := seg_inRange hj hc
    have e1 : shuffled m k (τ a) r j = 0 := ih a hai (Or.inr fa) (inp hh a (by simp)) _ (by rw [sa]; exact inRange2.2 s1)
    have e2 : shuffled k n (τ b) j c = 0 := ih b hbi (Or.inr fb) (inp hh b (by simp)) _ (by rw [sb]; exact inRange2.2 s2)
    rw [e1, e2, zero_mul, mul_zero, add_zero]
  | @dot a b t u v _ hh ht hu hv hai hbi fa fb hts hsh _ =>
    rw [shapeOf_data hv, hsh] at hidx
    obtain rfl := inRange_one hidx
    rw [hτ.dot i a b hi hx hh, allIndices_sum_congr (g := fun _ => 0) fun idx hidx => by
      rw [ih a hai (Or.inr fa) (inp hh a (by simp)) idx hidx,
        ih b hbi (Or.inr fb) (inp hh b (by simp)) idx (by rw [shapeOf_data hu, ← hts, ← shapeOf_data ht]; exact hidx), zero_mul, mul_zero, add_zero]]
    simp
  | @sum a t v hh ht hv hai fa hsh _ =>
    rw [shapeOf_data hv, hsh] at hidx
    obtain rfl : idx = [] := List.length_eq_zero_iff.1 hidx.length_eq.symm
    rw [hτ.sum i a hi hx hh, allIndices_sum_congr (g := fun _ => 0) fun idx hidx => ih a hai (Or.inr fa) (inp hh a (by simp)) idx hidx]
    simp

/-- `i` is or depends on a result of `sum` that depends on `x` -/
def HasSum (h : Heap ℝ) (x i : Nat) : Prop := ∃ s b, Feeds h s i ∧ historyOf h s = some (some ⟨[b], .sum⟩) ∧ Ancestor h x s

/-- with the `sum`s on top the two parts are the derivative -/
theorem sweeps_onTop {h : Heap ℝ} {l x : Nat} {e : List Nat} {τ σ : Nat → List Nat → ℝ} {ε : Nat → ℝ} (hg : h.Good) (hl : RealLoss h l)
    (htop : SumsOnTop h l x) (hσ : Sweeps h l x e σ ε) (hτ : Tangents h l x e τ) :
    ∀ i, Feeds h i l → (¬ HasSum h x i → ε i = 0 ∧ ∀ idx, InRange (shapeOf h i) idx → σ i idx = τ i idx) ∧
      (HasSum h x i → (shapeOf h i).prod = 1 ∧ ∀ idx, InRange (shapeOf h i) idx → σ i idx + ε i = τ i idx) := by
  intro i
  induction i using Nat.strong_induction_on with
  | _ i ih =>
  intro hi
  by_cases hx : i = x
  · subst hx
    refine ⟨fun _ => ⟨hσ.stop, fun idx hidx => by rw [hσ.self idx hidx, hτ.self idx hidx]⟩, ?_⟩
    rintro ⟨s, b, hs, _, hxs⟩
    have h1 := ancestor_lt hg hxs
    rcases hs with rfl | hs
    · exact absurd h1 (lt_irrefl _)
    · exact absurd (ancestor_lt hg hs) (by omega)
  have inp : ∀ {d : Deriv}, historyOf h i = some (some d) → ∀ a ∈ d.inputs, IsInput h a i := by
    intro d hh a ha
    simp only [historyOf, Option.map_eq_some_iff] at hh
    obtain ⟨nd, hnd, hd⟩ := hh
    exact ⟨nd, d, hnd, hd, ha⟩
  have up : ∀ {d : Deriv}, historyOf h i = some (some d) → ∀ a ∈ d.inputs, HasSum h x a → HasSum h x i := by
    rintro d hh a ha ⟨s, b, hs, h1, h2⟩
    refine ⟨s, b, ?_, h1, h2⟩
    rcases hs with rfl | hs
    · exact Or.inr (.single (inp hh _ ha))
    · exact Or.inr (hs.tail (inp hh a ha))
  have down : ∀ {d : Deriv}, historyOf h i = some (some d) → d.kind ≠ .sum → HasSum h x i → ∃ a ∈ d.inputs, HasSum h x a := by
    rintro d hh hk ⟨s, b, hs, h1, h2⟩
    rcases hs with rfl | hs
    · rw [hh] at h1
      cases h1
      exact absurd rfl hk
    · obtain ⟨a, ⟨nd, d', hnd, hd', ha⟩, hsa⟩ := Ancestor.last hs
      have : d' = d := by
        simp only [historyOf, hnd, Option.map_some, Option.some.injEq] at hh
        rw [hh] at hd'
        exact (Option.some.inj hd').symm
      subst this
      exact ⟨a, ha, s, b, hsa, h1, h2⟩
  have top : ∀ {d : Deriv}, historyOf h i = some (some d) → ∀ a ∈ d.inputs, HasSum h x a →
      (d.kind = .add ∨ d.kind = .sum) ∧ (shapeOf h a).prod = 1 ∧ (shapeOf h i).prod = 1 := by
    rintro d hh a ha ⟨s, b, hs, h1, h2⟩
    exact htop i d a s b hi hh ha hs h1 h2
  -- the first half, if there is no `sum` below
  have none_pass : ∀ d, historyOf h i = some (some d) → d.kind ≠ .sum → (∀ a ∈ d.inputs, ε a = 0) → ε i = 0 := by
    intro d hh hk h0
    rw [hσ.pass i d hi hx hh hk, List.map_congr_left (g := fun _ => (0 : ℝ)) h0]
    simp
  cases nodeForm hg hl hi with
  | leaf hh =>
    refine ⟨fun _ => ⟨hσ.none i hi hx hh, fun idx hidx => by rw [hσ.leaf i hi hx hh idx hidx, hτ.leaf i hi hx hh idx hidx]⟩, ?_⟩
    rintro ⟨s, b, hs, h1, _⟩
    rcases hs with rfl | hs
    · rw [hh] at h1
      cases h1
    · obtain ⟨a, ⟨nd, d', hnd, hd', ha⟩, hsa⟩ := Ancestor.last hs
      simp [historyOf, hnd, hd'] at hh
  | @add a b t u v hh ht hu hv hai hbi fa fb hc hsh _ =>
    obtain ⟨_, pt⟩ := hl.data a t (Or.inr fa) ht
    obtain ⟨_, pu⟩ := hl.data b u (Or.inr fb) hu
    have ia := ih a hai (Or.inr fa)
    have ib := ih b hbi (Or.inr fb)
    have proj : ∀ idx, InRange (shapeOf h i) idx → InRange (shapeOf h a) (bproj (shapeOf h a) idx) ∧ InRange (shapeOf h b) (bproj (shapeOf h b) idx) := by
      intro idx hidx
      obtain ⟨h1, h2⟩ := bproj_mem pt pu hc (idx := idx) (by rw [← hsh, ← shapeOf_data hv]; exact hidx)
      rw [shapeOf_data ht, shapeOf_data hu]
      exact ⟨h1, h2⟩
    constructor
    · intro hn
      have na := ia.1 fun h1 => hn (up hh a (by simp) h1)
      have nb := ib.1 fun h1 => hn (up hh b (by simp) h1)
      refine ⟨none_pass _ hh (by simp) (by simp [na.1, nb.1]), fun idx hidx => ?_⟩
      rw [hσ.add i a b hi hx hh idx hidx, hτ.add i a b hi hx hh idx hidx, na.2 _ (proj idx hidx).1, nb.2 _ (proj idx hidx).2]
    · intro hs
      have h1 : (shapeOf h i).prod = 1 := by
        obtain ⟨z, hz, hzs⟩ := down hh (by simp) hs
        exact (top hh z hz hzs).2.2
      refine ⟨h1, fun idx hidx => ?_⟩
      have part : ∀ {z : Nat}, ((¬ HasSum h x z → ε z = 0 ∧ ∀ idx, InRange (shapeOf h z) idx → σ z idx = τ z idx) ∧
          (HasSum h x z → (shapeOf h z).prod = 1 ∧ ∀ idx, InRange (shapeOf h z) idx → σ z idx + ε z = τ z idx)) →
          ∀ idx, InRange (shapeOf h z) idx → σ z idx + ε z = τ z idx := by
        intro z hz idx hidx
        by_cases hzs : HasSum h x z
        · exact (hz.2 hzs).2 idx hidx
        · rw [(hz.1 hzs).1, add_zero]
          exact (hz.1 hzs).2 idx hidx
      rw [hσ.add i a b hi hx hh idx hidx, hτ.add i a b hi hx hh idx hidx, hσ.pass i _ hi hx hh (by simp)]
      simp only [List.map_cons, List.map_nil, List.sum_cons, List.sum_nil, add_zero]
      rw [add_add_add_comm, part ia _ (proj idx hidx).1, part ib _ (proj idx hidx).2]
  | @unary a k t v hk hh ht hv hai fa _ hsh _ =>
    have hk' : k ≠ .sum := by rintro rfl; simp [isUnary] at hk
    have hna : ¬ HasSum h x a := by
      intro h1
      rcases (top hh a (by simp) h1).1 with h2 | h2 <;> simp only at h2 <;> subst h2 <;> simp [isUnary] at hk
    refine ⟨fun _ => ?_, fun hs => ?_⟩
    · obtain ⟨h1, h2⟩ := (ih a hai (Or.inr fa)).1 hna
      refine ⟨none_pass _ hh hk' (by simpa using h1), fun idx hidx => ?_⟩
      rw [hσ.unary hk hi hx hh ht hidx, hτ.unary hk hi hx hh ht hidx, h2 idx (by rw [shapeOf_data ht, ← hsh, ← shapeOf_data hv]; exact hidx)]
    · obtain ⟨z, hz, hzs⟩ := down hh hk' hs
      simp only [List.mem_singleton] at hz
      subst hz
      exact absurd hzs hna
  | @bmm a b m k n t u v _ hh ht hu hv hai hbi fa fb hts hus hsh _ =>
    have hnz : ∀ z ∈ [a, b], ¬ HasSum h x z := by
      intro z hz h1
      rcases (top hh z hz h1).1 with h2 | h2 <;> simp at h2
    refine ⟨fun _ => ?_, fun hs => ?_⟩
    · obtain ⟨a1, a2⟩ := (ih a hai (Or.inr fa)).1 (hnz a (by simp))
      obtain ⟨b1, b2⟩ := (ih b hbi (Or.inr fb)).1 (hnz b (by simp))
      refine ⟨none_pass _ hh (by simp) (by simp [a1, b1]), fun idx hidx => ?_⟩
      rw [shapeOf_data hv, hsh] at hidx
      obtain ⟨r, c, rfl⟩ : ∃ r c, idx = [r, c] := List.length_eq_two.1 hidx.length_eq.symm
      obtain ⟨hr, hc⟩ := inRange2.1 hidx
      have sa := (shapeOf_data ht).trans hts
      have sb := (shapeOf_data hu).trans hus
      rw [hσ.bmm i a b hi hx hh m k n sa sb r hr c hc, hτ.bmm i a b hi hx hh m k n sa sb r hr c hc]
      refine Finset.sum_congr rfl fun j hj => ?_
      rw [Finset.mem_range] at hj
      have s1 := seg_inRange hr hj
      have s2 := seg_inRange hj hc
      have e1 : shuffled m k (σ a) r j = shuffled m k (τ a) r j := a2 _ (by rw [sa]; exact inRange2.2 s1)
      have e2 : shuffled k n (σ b) j c = shuffled k n (τ b) j c := b2 _ (by rw [sb]; exact inRange2.2 s2)
      rw [e1, e2]
    · obtain ⟨z, hz, hzs⟩ := down hh (by simp) hs
      exact absurd hzs (hnz z hz)
  | @dot a b t u v _ hh ht hu hv hai hbi fa fb hts hsh _ =>
    have hnz : ∀ z ∈ [a, b], ¬ HasSum h x z := by
      intro z hz h1
      rcases (top hh z hz h1).1 with h2 | h2 <;> simp at h2
    refine ⟨fun _ => ?_, fun hs => ?_⟩
    · obtain ⟨a1, a2⟩ := (ih a hai (Or.inr fa)).1 (hnz a (by simp))
      obtain ⟨b1, b2⟩ := (ih b hbi (Or.inr fb)).1 (hnz b (by simp))
      refine ⟨none_pass _ hh (by simp) (by simp [a1, b1]), fun idx hidx => ?_⟩
      rw [shapeOf_data hv, hsh] at hidx
      obtain rfl := inRange_one hidx
      rw [hσ.dot i a b hi hx hh, hτ.dot i a b hi hx hh]
      refine allIndices_sum_congr fun idx hidx => ?_
      rw [a2 idx hidx, b2 idx (by rw [shapeOf_data hu, ← hts, ← shapeOf_data ht]; exact hidx)]
    · obtain ⟨z, hz, hzs⟩ := down hh (by simp) hs
      exact absurd hzs (hnz z hz)
  | @sum a t v hh ht hv hai fa hsh _ =>
    have hs0 := (shapeOf_data hv).trans hsh
    have ia := ih a hai (Or.inr fa)
    have hsum : ε i = τ i [] := by
      rw [hσ.sums i a hi hx hh, hτ.sum i a hi hx hh]
      by_cases ha : HasSum h x a
      · obtain ⟨h1, h2⟩ := ia.2 ha
        obtain ⟨idx, hidx⟩ : ∃ idx, allIndices (shapeOf h a) = [idx] := List.length_eq_one_iff.1 (by rw [allIndices_length, h1])
        have hr : InRange (shapeOf h a) idx := mem_allIndices.1 (by rw [hidx]; simp)
        rw [hidx]
        simp only [List.map_cons, List.map_nil, List.sum_cons, List.sum_nil, add_zero]
        rw [add_comm]
        exact h2 idx hr
      · obtain ⟨h1, h2⟩ := ia.1 ha
        rw [h1, zero_add]
        exact allIndices_sum_congr h2
    have hidx0 : ∀ idx, InRange (shapeOf h i) idx → idx = [] := by
      intro idx hidx
      rw [hs0] at hidx
      exact List.length_eq_zero_iff.1 hidx.length_eq.symm
    refine ⟨fun hn => ?_, fun _ => ⟨by rw [hs0]; rfl, fun idx hidx => ?_⟩⟩
    · have hnx : ¬ Feeds h x i := by
        rintro (h1 | h1)
        · exact hx h1.symm
        · exact hn ⟨i, a, Or.inl rfl, hh, h1⟩
      have h0 := tangents_zero hg hl hτ i hi hnx [] (by rw [hs0]; exact .nil)
      refine ⟨by rw [hsum, h0], fun idx hidx => ?_⟩
      obtain rfl := hidx0 idx hidx
      rw [hσ.cut i a hi hx hh, h0]
    · obtain rfl := hidx0 idx hidx
      rw [hσ.cut i a hi hx hh, hsum, zero_add]

/-- no `sum`s inside -/
theorem sumsOnTop_of_noInner {h : Heap ℝ} {l x : Nat} (hg : h.Good) (hno : ∀ i d, Ancestor h i l → historyOf h i = some (some d) → d.kind ≠ .sum) :
    SumsOnTop h l x := by
  intro i d a s b hi hh ha hs h1 _
  exfalso
  refine hno s _ ?_ h1 rfl
  have hai : IsInput h a i := by
    simp only [historyOf, Option.map_eq_some_iff] at hh
    obtain ⟨nd, hnd, hd⟩ := hh
    exact ⟨nd, d, hnd, hd, ha⟩
  have hsi : Ancestor h s i := by
    rcases hs with rfl | hs
    · exact .single hai
    · exact hs.tail hai
  rcases hi with rfl | hi
  · exact hsi
  · exact hsi.trans hi

theorem backward_tangent {h h' : Heap ℝ} {l x : Nat} {v : Raw ℝ} (hg : h.Good) (hl : RealLoss h l) (htop : SumsOnTop h l x)
    (e : backward h l = .ok h') (hx : Ancestor h x l) (hv : dataOf h x = some v)
    (hfit : ∀ p, gradOf h x = some p → p.shape = v.shape ∧ WF p) :
    ∃ g, gradOf h' x = some g ∧ g.shape = v.shape ∧ WF g ∧ ∀ c, InRange v.shape c → ∀ il, InRange (shapeOf h l) il →
      ∀ τ, Tangents h l x c τ → Raw.elem? g c = some (coord (gradOf h x) c + τ l il) := by
  obtain ⟨g, h1, h2, h3, h4⟩ := backward_sweeps hg hl e hx hv hfit
  refine ⟨g, h1, h2, h3, fun c hc il hil τ hτ => ?_⟩
  obtain ⟨σ, ε, hσ⟩ := sweeps_exists hg l x c
  rw [h4 c hc il hil σ ε hσ]
  obtain ⟨t1, t2⟩ := sweeps_onTop hg hl htop hσ hτ l (Or.inl rfl)
  by_cases hs : HasSum h x l
  · rw [(t2 hs).2 il hil]
  · rw [(t1 hs).1, (t1 hs).2 il hil, add_zero]

theorem backward_derivative_regular {h h' : Heap ℝ} {l x : Nat} {v : Raw ℝ} (hg : h.Good) (hl : RealLoss h l) (hsm : SmallFor h l x)
    (htop : SumsOnTop h l x)
    (e : backward h l = .ok h') (hx : Ancestor h x l) (hv : dataOf h x = some v)
    (hfit : ∀ p, gradOf h x = some p → p.shape = v.shape ∧ WF p) {X : List Nat → ℝ}
    (hX : ∀ idx, InRange v.shape idx → X idx = cell v idx) {V : (List Nat → ℝ) → Nat → List Nat → ℝ} (hV : ∀ Y, Reeval h l x Y (V Y)) :
    ∃ g, gradOf h' x = some g ∧ g.shape = v.shape ∧ WF g ∧ ∀ c, InRange v.shape c →
      (∀ i a k t, Feeds h i l → historyOf h i = some (some ⟨[a], k⟩) → k = .relu ∨ k = .abs → dataOf h a = some t →
        ∀ idx, InRange t.shape idx → cell t idx = 0 → ∀ D, HasDerivAt (fun y => V (Function.update X c y) a idx) D (X c) → D = 0) →
      ∀ il, InRange (shapeOf h l) il →
      ∃ D, HasDerivAt (fun y => V (Function.update X c y) l il) D (X c) ∧ Raw.elem? g c = some (coord (gradOf h x) c + D) := by
  obtain ⟨g, h1, h2, h3, h4⟩ := backward_tangent hg hl htop e hx hv hfit
  refine ⟨g, h1, h2, h3, fun c hc hkk il hil => ?_⟩
  obtain ⟨τ, hτ, hD⟩ := reeval_tangent_regular hg hl (x := x) (X := X) (fun w hw idx hidx => by
    rw [hv] at hw
    cases hw
    exact hX idx hidx) hV c hkk
  exact ⟨τ l il, hD l il (Or.inl rfl) hil, h4 c hc il hil τ (hτ.tangents hg hl hsm)⟩

theorem backward_derivative {h h' : Heap ℝ} {l x : Nat} {v : Raw ℝ} (hg : h.Good) (hl : DiffLoss h l) (hsm : SmallFor h l x)
    (htop : SumsOnTop h l x)
    (e : backward h l = .ok h') (hx : Ancestor h x l) (hv : dataOf h x = some v)
    (hfit : ∀ p, gradOf h x = some p → p.shape = v.shape ∧ WF p) {X : List Nat → ℝ}
    (hX : ∀ idx, InRange v.shape idx → X idx = cell v idx) {V : (List Nat → ℝ) → Nat → List Nat → ℝ} (hV : ∀ Y, Reeval h l x Y (V Y)) :
    ∃ g, gradOf h' x = some g ∧ g.shape = v.shape ∧ WF g ∧ ∀ c, InRange v.shape c → ∀ il, InRange (shapeOf h l) il →
      ∃ D, HasDerivAt (fun y => V (Function.update X c y) l il) D (X c) ∧ Raw.elem? g c = some (coord (gradOf h x) c + D) := by
  obtain ⟨g, h1, h2, h3, h4⟩ := backward_tangent hg hl.toRealLoss htop e hx hv hfit
  refine ⟨g, h1, h2, h3, fun c hc il hil => ?_⟩
  obtain ⟨τ, hτ, hD⟩ := reeval_tangent hg hl (x := x) (X := X) (fun w hw idx hidx => by
    rw [hv] at hw
    cases hw
    exact hX idx hidx) hV c
  exact ⟨τ l il, hD l il (Or.inl rfl) hil, h4 c hc il hil τ (hτ.tangents hg hl.toRealLoss hsm)⟩

end RL
