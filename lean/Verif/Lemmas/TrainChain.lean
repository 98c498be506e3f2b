import Verif.Lemmas.TrainForward
import Verif.Lemmas.Replay

/-! Helper lemmas: properties of the computation recorded by a network -/

namespace RL

open Spec

theorem params_cons (l : Linear ℝ) (ls : List (Linear ℝ)) : (⟨l :: ls⟩ : Mlp ℝ).params = l.weights :: l.bias :: (⟨ls⟩ : Mlp ℝ).params := rfl

theorem actKind_cases {f : Act} {k : JvpKind} (h : actKind f = some k) : (f = .relu ∧ k = .relu) ∨ (f = .tanh ∧ k = .tanh) := by
  cases f <;> simp_all [actKind]

theorem matrix_zero {v : Raw ℝ} {m n : Nat} {f : Nat → Nat → ℝ} (hv : Matrix v m n f) (hf : ∀ i < m, ∀ j < n, f i j ≠ 0) : (0 : ℝ) ∉ v.array := by
  intro h0
  obtain ⟨i, hi⟩ := List.mem_iff_getElem?.1 h0
  have hlt := getElem?_lt hi
  obtain ⟨hs, hw, he⟩ := hv
  rw [WF, hs] at hw
  simp only [List.prod_cons, List.prod_nil, mul_one] at hw
  rw [hw] at hlt
  have hn : 0 < n := Nat.pos_of_ne_zero fun h => by rw [h] at hlt; omega
  have h1 : i / n < m := (Nat.div_lt_iff_lt_mul hn).2 hlt
  have h2 : i % n < n := Nat.mod_lt _ hn
  have h3 := he _ h1 _ h2
  have h4 : i / n * n + i % n = i := Nat.div_add_mod' i n
  rw [Raw.elem?, hs, rowMajor_pair, h4, hi] at h3
  exact hf _ h1 _ h2 (Option.some.inj h3).symm

theorem Chain.feeds {H : Heap ℝ} {m base : Nat} {θ : Nat → Nat → ℝ} : ∀ {ls : List (Linear ℝ)} {ds : List (Nat × Act)} {k q x r : Nat}
    {a : Nat → Nat → ℝ}, Chain H m base θ k q x a ls ds r → Feeds H x r ∧ ∀ p ∈ (⟨ls⟩ : Mlp ℝ).params, Ancestor H p r := by
  intro ls
  induction ls with
  | nil =>
    intro ds k q x r a hc
    cases ds with
    | nil => exact ⟨Or.inl hc.symm, by simp [Mlp.params]⟩
    | cons => exact hc.elim
  | cons l ls ih =>
    intro ds k q x r a hc
    cases ds with
    | nil => exact hc.elim
    | cons d ds =>
      obtain ⟨n, f⟩ := d
      obtain ⟨_, y, z, r1, yv, zv, _, _, hy, _, _, hz, _, hact, _, _, _, hc'⟩ := hc
      obtain ⟨h1, h2⟩ := ih hc'
      have zr1 : Feeds H z r1 := by
        unfold ActNode at hact
        split at hact
        · exact Or.inl hact.symm
        · exact Or.inr (isInput_of hact.2 rfl (by simp))
      have hzr := zr1.trans h1
      have hyz : Ancestor H y z := isInput_of hz rfl (by simp)
      have hbz : Ancestor H l.bias z := isInput_of hz rfl (by simp)
      have hxy : Ancestor H x y := isInput_of hy rfl (by simp)
      have hwy : Ancestor H l.weights y := isInput_of hy rfl (by simp)
      have up : ∀ {i}, Ancestor H i z → Ancestor H i r := by
        intro i hi
        rcases hzr with rfl | h
        · exact hi
        · exact Relation.TransGen.trans hi h
      refine ⟨Or.inr (up (Relation.TransGen.trans hxy hyz)), fun p hp => ?_⟩
      rw [params_cons] at hp
      simp only [List.mem_cons] at hp
      rcases hp with rfl | rfl | hp
      · exact up (Relation.TransGen.trans hwy hyz)
      · exact up hbz
      · exact h2 p hp

theorem Chain.tree {S K : Prop} {π : Nat} {H : Heap ℝ} {m base : Nat} (hm : 0 < m) {θ : Nat → Nat → ℝ} : ∀ {ls : List (Linear ℝ)} {ds : List (Nat × Act)}
    {k q x r : Nat} {a : Nat → Nat → ℝ}, Chain H m base θ k q x a ls ds r → CleanTree S K π H x → (∀ p ∈ (⟨ls⟩ : Mlp ℝ).params, CleanTree S K π H p) →
    (K → ReluSmooth m θ k q ds a) → (S → (ds ≠ [] → Feeds H π x → m * k ≤ 32) ∧ SmallNet m k ds) → CleanTree S K π H r := by
  intro ls
  induction ls with
  | nil =>
    intro ds k q x r a hc hx _ _ _
    cases ds with
    | nil =>
      obtain rfl : r = x := hc
      exact hx
    | cons => exact hc.elim
  | cons l ls ih =>
    intro ds k q x r a hc hx hp hk hS
    cases ds with
    | nil => exact hc.elim
    | cons d ds =>
      obtain ⟨n, f⟩ := d
      obtain ⟨hn, y, z, r1, yv, zv, _, _, hy, ys, yw, hz, zm, hact, sx, sw, _, hc'⟩ := hc
      rw [params_cons] at hp
      have pos : Pos [m, n] := by simp [Pos]; omega
      have ty : CleanTree S K π H y := by
        refine CleanTree.step hy rfl (CleanNode.mk' hy ⟨yw, ys ▸ pos⟩ (by simp) (by simp) ?_) ?_
        · intro _ b c hbc
          simp only [List.cons.injEq, and_true] at hbc
          obtain ⟨rfl, rfl⟩ := hbc
          refine ⟨⟨m, k, n, sx, sw⟩, fun s => ?_⟩
          rw [sx, sw]
          have := hS s
          exact ⟨fun hf => by simpa using this.1 (by simp) hf, fun _ => by simpa using this.2.1⟩
        · intro b hb
          simp only [List.mem_cons, List.not_mem_nil, or_false] at hb
          rcases hb with rfl | rfl
          · exact hx
          · exact hp _ (by simp)
      have tz : CleanTree S K π H z := by
        refine CleanTree.step hz rfl (CleanNode.mk' hz ⟨zm.2.1, zm.1 ▸ pos⟩ (by simp) (by simp) (by simp)) ?_
        intro b hb
        simp only [List.mem_cons, List.not_mem_nil, or_false] at hb
        rcases hb with rfl | rfl
        · exact ty
        · exact hp _ (by simp)
      have tr : CleanTree S K π H r1 := by
        unfold ActNode at hact
        split at hact
        · rw [hact]
          exact tz
        · next k' hk' =>
          refine CleanTree.step hact.2 rfl (CleanNode.mk' hact.2 ⟨by simpa [WF] using zm.2.1, zm.1 ▸ pos⟩ ?_ ?_ ?_) ?_
          · rcases actKind_cases hk' with ⟨_, rfl⟩ | ⟨_, rfl⟩ <;> simp
          · intro hK hkk b w hb hw
            simp only [List.cons.injEq, and_true] at hb
            subst hb
            rw [dataOf_node hz] at hw
            cases hw
            rcases actKind_cases hk' with ⟨rfl, rfl⟩ | ⟨_, rfl⟩
            · exact matrix_zero zm ((hk hK).1 rfl)
            · simp at hkk
          · intro h1
            rcases actKind_cases hk' with ⟨_, rfl⟩ | ⟨_, rfl⟩ <;> simp at h1
          · intro b hb
            simp only [List.mem_cons, List.not_mem_nil, or_false] at hb
            rw [hb]
            exact tz
      exact ih hc' tr (fun p hp' => hp p (by simp [hp'])) (fun hK => (hk hK).2) fun s => ⟨fun hd _ => (hS s).2.2.1 hd, (hS s).2.2.2⟩

theorem affine_sum (k : Nat) (x w : Nat → Nat → ℝ) (b : Nat → ℝ) (i j : Nat) :
    affine k x w b i j = (∑ kk ∈ Finset.range k, x i kk * w kk j) + b j := by
  rw [affine, ← sum_range_list]
  congr 1
  rw [List.sum_eq_foldl, List.foldl_map]

/-- the parameters in a re-evaluation -/
def ParamVals (H : Heap ℝ) (V : Nat → List Nat → ℝ) (θ : Nat → Nat → ℝ) : Nat → Nat → List (Linear ℝ) → List (Nat × Act) → Prop
  | k, q, l :: ls, (n, _) :: ds => (∀ i < k, ∀ j < n, V l.weights [i, j] = θ q (i * n + j)) ∧
      (∀ j < n, (shapeOf H l.bias = [n] → V l.bias [j] = θ (q + 1) j) ∧ (shapeOf H l.bias = [1, n] → V l.bias [0, j] = θ (q + 1) j)) ∧
      ParamVals H V θ n (q + 2) ls ds
  | _, _, _, _ => True

theorem Spec.Reeval.act {H : Heap ℝ} {l p : Nat} {Y : List Nat → ℝ} {V : Nat → List Nat → ℝ} (hV : Reeval H l p Y V) {base : Nat} (hp : p < base)
    {f : Act} {z r : Nat} {zv : Raw ℝ} (hz : dataOf H z = some zv) (hact : ActNode H base f z zv r) (hr : Feeds H r l) {idx : List Nat}
    (hi : InRange zv.shape idx) : V r idx = f.fn (V z idx) := by
  unfold ActNode at hact
  split at hact
  · next h =>
    cases f <;> simp [actKind] at h
    rw [hact]
    rfl
  · next k h =>
    obtain ⟨h1, h2⟩ := hact
    have h3 : InRange (shapeOf H r) idx := by rw [shapeOf_eq h2]; exact hi
    rcases actKind_cases h with ⟨rfl, rfl⟩ | ⟨rfl, rfl⟩
    · exact hV.relu r z hr (by omega) (historyOf_node h2) idx h3
    · exact hV.tanh r z hr (by omega) (historyOf_node h2) idx h3

/-- the output of a network in a re-evaluation -/
theorem Chain.value {H : Heap ℝ} {m base : Nat} {θ θ' : Nat → Nat → ℝ} {l p : Nat} {Y : List Nat → ℝ} {V : Nat → List Nat → ℝ}
    (hV : Reeval H l p Y V) (hp : p < base) : ∀ {ls : List (Linear ℝ)} {ds : List (Nat × Act)} {k q x r : Nat} {a a' : Nat → Nat → ℝ},
    Chain H m base θ k q x a ls ds r → Feeds H r l → ParamVals H V θ' k q ls ds → (∀ i < m, ∀ j < k, V x [i, j] = a' i j) →
    ∀ i < m, ∀ j < lastWidth k ds, V r [i, j] = netValue k (layerFns θ' q ds) a' i j := by
  intro ls
  induction ls with
  | nil =>
    intro ds k q x r a a' hc _ _ hx
    cases ds with
    | nil =>
      obtain rfl : r = x := hc
      exact hx
    | cons => exact hc.elim
  | cons l' ls ih =>
    intro ds k q x r a a' hc hr hpv hx
    cases ds with
    | nil => exact hc.elim
    | cons d ds =>
      obtain ⟨n, f⟩ := d
      obtain ⟨hn, y, z, r1, yv, zv, hyb, hzb, hy, ys, yw, hz, zm, hact, sx, sw, sb, hc'⟩ := hc
      obtain ⟨hw, hb, hpv'⟩ := hpv
      have fr1 := (hc'.feeds.1).trans hr
      have zr1 : Feeds H z r1 := by
        unfold ActNode at hact
        split at hact
        · exact Or.inl hact.symm
        · exact Or.inr (isInput_of hact.2 rfl (by simp))
      have fz := zr1.trans fr1
      have fy : Feeds H y l := Or.inr (fz.input hz rfl (by simp))
      show ∀ i < m, ∀ j < lastWidth n ds, V r [i, j] = netValue n (layerFns θ' (q + 2) ds) _ i j
      refine ih hc' hr hpv' ?_
      intro i hi j hj
      have inr : InRange [m, n] [i, j] := inRange2.2 ⟨hi, hj⟩
      rw [hV.act hp (dataOf_node hz) hact fr1 (by rw [zm.1]; exact inr)]
      congr 1
      have hz' := hV.add z y l'.bias fz (by omega) (historyOf_node hz) [i, j] (by rw [shapeOf_eq hz]; simp only [zm.1]; exact inr)
      rw [hz', shapeOf_eq hy, affine_sum]
      simp only [ys]
      rw [bproj_of_inRange inr, hV.bmm y x l'.weights fy (by omega) (historyOf_node hy) m k n sx sw i hi j hj]
      congr 1
      · refine Finset.sum_congr rfl fun kk hkk => ?_
        rw [Finset.mem_range] at hkk
        rw [hx i hi kk hkk, hw kk hkk j hj]
      · rcases sb with sb | sb
        · rw [sb, ← (hb j hj).1 sb]
          congr 1
          by_cases hn1 : n = 1
          · subst hn1
            obtain rfl : j = 0 := by omega
            simp [bproj, alignRight]
          · simp [bproj, alignRight, hn1]
        · rw [sb, ← (hb j hj).2 sb]
          congr 1
          by_cases hn1 : n = 1
          · subst hn1
            obtain rfl : j = 0 := by omega
            simp [bproj, alignRight]
          · simp [bproj, alignRight, hn1]

/-- tensors that do not depend on `x` keep their elements in a re-evaluation -/
theorem reeval_indep {h : Heap ℝ} {l x : Nat} (hg : h.Good) (hl : RealLoss h l) {X : List Nat → ℝ} {V : Nat → List Nat → ℝ}
    (hV : Reeval h l x X V) :
    ∀ (i : Nat) (v : Raw ℝ), Feeds h i l → ¬ Feeds h x i → dataOf h i = some v → ∀ idx, InRange v.shape idx → V i idx = cell v idx := by
  intro i
  induction i using Nat.strong_induction_on with
  | _ i ih =>
  intro v hi hni hv idx hidx
  have hs := shapeOf_data hv
  have hx : i ≠ x := fun h' => hni (Or.inl h'.symm)
  have hin : ∀ {d a}, historyOf h i = some (some d) → a ∈ d.inputs → ¬ Feeds h x a := by
    intro d a hd ha hxa
    obtain ⟨n, hn, hd⟩ := historyOf_eq.1 hd
    exact hni (Or.inr (hxa.anc (isInput_of hn hd ha)))
  cases nodeForm hg hl hi with
  | leaf hh => exact (cell_elem (hV.leaf i v hi hx hv hh idx hidx)).symm
  | @add a b t u v' hh ht hu hv' hai hbi fa fb hc hsh hcell =>
    rw [hv] at hv'
    cases hv'
    obtain ⟨_, pt⟩ := hl.data a t (Or.inr fa) ht
    obtain ⟨_, pu⟩ := hl.data b u (Or.inr fb) hu
    obtain ⟨h1, h2⟩ := bproj_mem pt pu hc (hsh ▸ hidx)
    rw [hV.add i a b hi hx hh idx (hs ▸ hidx), shapeOf_data ht, shapeOf_data hu, ih a hai t (Or.inr fa) (hin hh (by simp)) ht _ h1,
      ih b hbi u (Or.inr fb) (hin hh (by simp)) hu _ h2, hcell idx hidx]
  | @unary a k t v' hk hh ht hv' hai fa _ hsh hcell =>
    rw [hv] at hv'
    cases hv'
    rw [hV.unary hk hi hx hh (hs ▸ hidx), ih a hai t (Or.inr fa) (hin hh (by simp)) ht idx (hsh ▸ hidx), hcell idx hidx]
  | @bmm a b m k n t u v' _ hh ht hu hv' hai hbi fa fb hts hus hsh hcell =>
    rw [hv] at hv'
    cases hv'
    rw [hsh] at hidx
    obtain ⟨r, c, rfl⟩ : ∃ r c, idx = [r, c] := List.length_eq_two.1 hidx.length_eq.symm
    obtain ⟨hr, hc⟩ := inRange2.1 hidx
    rw [hV.bmm i a b hi hx hh m k n ((shapeOf_data ht).trans hts) ((shapeOf_data hu).trans hus) r hr c hc, hcell r hr c hc]
    refine Finset.sum_congr rfl fun j hj => ?_
    rw [Finset.mem_range] at hj
    rw [ih a hai t (Or.inr fa) (hin hh (by simp)) ht _ (by rw [hts]; exact inRange2.2 ⟨hr, hj⟩),
      ih b hbi u (Or.inr fb) (hin hh (by simp)) hu _ (by rw [hus]; exact inRange2.2 ⟨hj, hc⟩)]
  | @dot a b t u v' _ hh ht hu hv' hai hbi fa fb hts hsh hcell =>
    rw [hv] at hv'
    cases hv'
    rw [hsh] at hidx
    obtain rfl := inRange_one hidx
    rw [hV.dot i a b hi hx hh, hcell, shapeOf_data ht]
    refine allIndices_sum_congr fun idx hidx => ?_
    rw [ih a hai t (Or.inr fa) (hin hh (by simp)) ht idx hidx, ih b hbi u (Or.inr fb) (hin hh (by simp)) hu idx (hts ▸ hidx)]
  | @sum a t v' hh ht hv' hai fa hsh hcell =>
    rw [hv] at hv'
    cases hv'
    rw [hsh] at hidx
    obtain rfl : idx = [] := List.length_eq_zero_iff.1 hidx.length_eq.symm
    rw [hV.sum i a hi hx hh, hcell, shapeOf_data ht]
    exact allIndices_sum_congr fun idx hidx => ih a hai t (Or.inr fa) (hin hh (by simp)) ht idx hidx

end RL
