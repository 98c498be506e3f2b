import Verif.Lemmas.TrainParams
import Verif.Lemmas.InnerSum

/-! Helper lemmas: the gradients of a network, for matrices of all sizes -/

namespace RL

open Spec

theorem Spec.Matrix.coord {v : Raw ℝ} {m n : Nat} {f : Nat → Nat → ℝ} (hv : Matrix v m n f) {i j : Nat} (hi : i < m) (hj : j < n) :
    coord (some v) [i, j] = f i j := by
  rw [coord_some]
  exact cell_elem (hv.2.2 i hi j hj)

theorem act_coord {H : Heap ℝ} {base : Nat} {f : Act} {z r m n : Nat} {zv : Raw ℝ} {g : Nat → Nat → ℝ} (hz : dataOf H z = some zv)
    (zm : Matrix zv m n g) (hact : ActNode H base f z zv r) {i j : Nat} (hi : i < m) (hj : j < n) : coord (dataOf H r) [i, j] = f.fn (g i j) := by
  unfold ActNode at hact
  split at hact
  · next h =>
    cases f <;> simp [actKind] at h
    rw [hact, hz, zm.coord hi hj]
    rfl
  · next k h =>
    rw [dataOf_node hact.2, coord_some]
    refine cell_elem ?_
    have := zm.2.2 i hi j hj
    simp only [Raw.elem?, List.getElem?_map] at this ⊢
    rw [this]
    rfl

theorem Spec.Tangents.act {H : Heap ℝ} {l p : Nat} {e : List Nat} {τ : Nat → List Nat → ℝ} (hτ : Tangents H l p e τ) {base : Nat} (hp : p < base)
    {f : Act} {z r m n : Nat} {zv : Raw ℝ} {g : Nat → Nat → ℝ} (hz : dataOf H z = some zv) (zm : Matrix zv m n g)
    (hact : ActNode H base f z zv r) (hr : Feeds H r l) {i j : Nat} (hi : i < m) (hj : j < n) :
    τ r [i, j] = f.slope (g i j) * τ z [i, j] := by
  have hidx : InRange zv.shape [i, j] := by rw [zm.1]; exact inRange2.2 ⟨hi, hj⟩
  unfold ActNode at hact
  split at hact
  · next h =>
    cases f <;> simp [actKind] at h
    rw [hact]
    simp [Act.slope]
  · next k h =>
    obtain ⟨h1, h2⟩ := hact
    have h3 : InRange (shapeOf H r) [i, j] := by rw [shapeOf_eq h2]; exact hidx
    rcases actKind_cases h with ⟨rfl, rfl⟩ | ⟨rfl, rfl⟩
    · rw [hτ.relu r z hr (by omega) (historyOf_node h2) _ h3, hz, zm.coord hi hj]
      simp only [Act.slope]
      split <;> simp
    · rw [hτ.tanh r z hr (by omega) (historyOf_node h2) _ h3, hz, zm.coord hi hj]
      rfl

/-- the derivatives of the output of a network -/
theorem Chain.tangent {H : Heap ℝ} {m base : Nat} {θ δ : Nat → Nat → ℝ} {l p : Nat} {e : List Nat} {τ : Nat → List Nat → ℝ}
    (hτ : Tangents H l p e τ) (hp : p < base) : ∀ {ls : List (Linear ℝ)} {ds : List (Nat × Act)} {k q x r : Nat} {a da : Nat → Nat → ℝ},
    Chain H m base θ k q x a ls ds r → Feeds H r l → LayersAre H k ls (layerFns θ q ds) → ParamVals H τ δ k q ls ds →
    (∀ i < m, ∀ j < k, coord (dataOf H x) [i, j] = a i j) → (∀ i < m, ∀ j < k, τ x [i, j] = da i j) →
    ∀ i < m, ∀ j < lastWidth k ds, τ r [i, j] = netTangent m θ δ k q ds a da i j := by
  intro ls
  induction ls with
  | nil =>
    intro ds k q x r a da hc _ _ _ _ hx
    cases ds with
    | nil =>
      obtain rfl : r = x := hc
      exact hx
    | cons => exact hc.elim
  | cons l' ls ih =>
    intro ds k q x r a da hc hr hl hpv hxa hx
    cases ds with
    | nil => exact hc.elim
    | cons d ds =>
      obtain ⟨n, f⟩ := d
      obtain ⟨hn, y, z, r1, yv, zv, hyb, hzb, hy, ys, yw, hz, zm, hact, sx, sw, sb, hc'⟩ := hc
      obtain ⟨hw, hb, hpv'⟩ := hpv
      obtain ⟨⟨_, _, wv, _, hwv, _, hwm, _⟩, hl'⟩ := hl
      have fr1 := (hc'.feeds.1).trans hr
      have zr1 : Feeds H z r1 := by
        unfold ActNode at hact
        split at hact
        · exact Or.inl hact.symm
        · exact Or.inr (isInput_of hact.2 rfl (by simp))
      have fz := zr1.trans fr1
      have fy : Feeds H y l := Or.inr (fz.input hz rfl (by simp))
      show ∀ i < m, ∀ j < lastWidth n ds, τ r [i, j] = netTangent m θ δ n (q + 2) ds _ _ i j
      refine ih hc' hr hl' hpv' (fun i hi j hj => act_coord (dataOf_node hz) zm hact hi hj) ?_
      intro i hi j hj
      have inr : InRange [m, n] [i, j] := inRange2.2 ⟨hi, hj⟩
      rw [hτ.act hp (dataOf_node hz) zm hact fr1 hi hj]
      congr 1
      have hz' := hτ.add z y l'.bias fz (by omega) (historyOf_node hz) [i, j] (by rw [shapeOf_eq hz]; simp only [zm.1]; exact inr)
      rw [hz', shapeOf_eq hy]
      simp only [ys]
      rw [bproj_of_inRange inr, hτ.bmm y x l'.weights fy (by omega) (historyOf_node hy) m k n sx sw i hi j hj]
      congr 1
      · refine Finset.sum_congr rfl fun kk hkk => ?_
        rw [Finset.mem_range] at hkk
        have h1 := seg_inRange hi hkk
        have h2 := seg_inRange hkk hj
        have e1 : shuffled m k (τ x) i kk = shuffledMat m k da i kk := hx _ h1.1 _ h1.2
        have e2 : shuffled k n (τ l'.weights) kk j = shuffledMat k n (fun i j => δ q (i * n + j)) kk j := hw _ h2.1 _ h2.2
        rw [hwv, hwm.coord hkk hj, hxa i hi kk hkk, e1, e2]
      · rcases sb with sb | sb
        · rw [sb, ← (hb j hj).1 sb]
          congr 1
          by_cases hn1 : n = 1
          · subst hn1
            obtain rfl : j = 0 := by omega
            simp [bproj, alignRight]
          · simp [bproj, alignRight, hn1]
        · rw [sb, ← (hb j hj).2 sb]
          congr 1
          by_cases hn1 : n = 1
          · subst hn1
            obtain rfl : j = 0 := by omega
            simp [bproj, alignRight]
          · simp [bproj, alignRight, hn1]

/-- the derivative of the loss -/
theorem LossTail.tangent {H : Heap ℝ} {base m w r y l ny df ab : Nat} {out exp : Nat → Nat → ℝ} (ht : LossTail H base m w r y l ny df ab out exp)
    {p : Nat} (hp : p < base) {e : List Nat} {τ : Nat → List Nat → ℝ} (hτ : Tangents H l p e τ)
    (hy : ∀ i < m, ∀ j < w, τ y [i, j] = 0) :
    τ l [] = ∑ i ∈ Finset.range m, ∑ j ∈ Finset.range w, (if out i j < exp i j then -1 else 1) * τ r [i, j] := by
  obtain ⟨b1, nv, e1, s1, _⟩ := ht.atNy
  obtain ⟨b2, dv, e2, m2⟩ := ht.atDf
  obtain ⟨b3, av, e3, s3, _⟩ := ht.atAb
  obtain ⟨b4, lv, g, e4, _⟩ := ht.atL
  have f3 : Feeds H ab l := Or.inr (isInput_of e4 rfl (by simp))
  have f2 : Feeds H df l := Or.inr (f3.input e3 rfl (by simp))
  have f1 : Feeds H ny l := Or.inr (f2.input e2 rfl (by simp))
  rw [hτ.sum l ab (Or.inl rfl) (by omega) (historyOf_node e4), shapeOf_eq e3]
  simp only [s3]
  rw [sum_allIndices_mat]
  refine Finset.sum_congr rfl fun i hi => Finset.sum_congr rfl fun j hj => ?_
  rw [Finset.mem_range] at hi hj
  have inr : InRange [m, w] [i, j] := inRange2.2 ⟨hi, hj⟩
  rw [hτ.abs ab df f3 (by omega) (historyOf_node e3) [i, j] (by rw [shapeOf_eq e3]; simp only [s3]; exact inr), dataOf_node e2,
    m2.coord hi hj,
    hτ.add df r ny f2 (by omega) (historyOf_node e2) [i, j] (by rw [shapeOf_eq e2]; simp only [m2.1]; exact inr), ht.atR, shapeOf_eq e1]
  simp only [s1]
  rw [bproj_of_inRange inr, hτ.neg ny y f1 (by omega) (historyOf_node e1) [i, j] (by rw [shapeOf_eq e1]; simp only [s1]; exact inr),
    hy i hi j hj, neg_zero, add_zero]
  have : out i j + -exp i j < 0 ↔ out i j < exp i j := by rw [← sub_eq_add_neg, sub_neg]
  simp only [this]
  split <;> simp

end RL
