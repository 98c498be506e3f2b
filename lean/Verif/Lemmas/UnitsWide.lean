import Verif.Lemmas.Rows

/-!
# The order of the units of a layer, for larger layers: lemmas
-/

namespace RL

open Spec

/-- if the number of columns divides 32, the shuffle moves whole rows -/
theorem shuffle_wholeRow {k n r j : Nat} (h : k * n ≤ 32 ∨ n ∣ 32) (hr : r < k) (hj : j < n) :
    shuffle (k * n) (r * n + j) = shuffle (k * n) (r * n) / n * n + j := by
  have hn : 0 < n := by omega
  rcases h with h | ⟨t, ht⟩
  · rw [shuffle_small h (mul_add_lt hr hj), shuffle_small h (by simpa using mul_add_lt hr hn), Nat.mul_div_cancel _ hn]
  · have key : ∀ j < n, shuffle (k * n) (r * n + j) = (k - min (t * (r / t + 1)) k + r % t) * n + j := by
      intro j hj
      have ht0 : 0 < t := Nat.pos_of_ne_zero fun h => by simp [h] at ht
      have h1 : r * n + j = 32 * (r / t) + (r % t * n + j) := by
        conv_lhs => rw [← Nat.div_add_mod r t]
        rw [ht]
        ring
      have h2 : r % t * n + j < 32 := by
        have := mul_add_lt (Nat.mod_lt r ht0) hj
        rwa [Nat.mul_comm t n, ← ht] at this
      have h3 : (r * n + j) / 32 = r / t := by rw [h1]; omega
      have h4 : (r * n + j) % 32 = r % t * n + j := by rw [h1]; omega
      rw [shuffle, h3, h4, show 32 * (r / t + 1) = t * (r / t + 1) * n by rw [ht]; ring, Nat.mul_min_mul_right, ← Nat.sub_mul]
      ring
    have h0 := key 0 hn
    rw [Nat.add_zero, Nat.add_zero] at h0
    rw [key j hj, h0, Nat.mul_div_cancel _ hn]

theorem shuffledMat_columns {k n : Nat} {σ : Nat → Nat} (h : k * n ≤ 32 ∨ n ∣ 32) (hσ : ∀ j < n, σ j < n) {F G : Nat → Nat → ℝ}
    (hF : ∀ r < k, ∀ j < n, F r j = G r (σ j)) {r j : Nat} (hr : r < k) (hj : j < n) : shuffledMat k n F r j = shuffledMat k n G r (σ j) := by
  have hn : 0 < n := by omega
  have hlt := shuffle_lt (mul_add_lt hr hj)
  rw [shuffle_wholeRow h hr hj] at hlt
  have hR : shuffle (k * n) (r * n) / n < k := by
    rw [Nat.div_lt_iff_lt_mul hn]
    exact shuffle_lt (by simpa using mul_add_lt hr hn)
  have at_ : ∀ j < n, ∀ F : Nat → Nat → ℝ, shuffledMat k n F r j = F (shuffle (k * n) (r * n) / n) j := by
    intro j hj F
    rw [shuffledMat, shuffle_wholeRow h hr hj, Nat.mul_comm _ n, Nat.mul_add_div hn, Nat.div_eq_of_lt hj, Nat.mul_add_mod, Nat.mod_eq_of_lt hj, Nat.add_zero]
  rw [at_ j hj, at_ _ (hσ j hj), hF _ hR j hj]

theorem shuffledMat_moveRow {k n : Nat} {σ : Equiv.Perm Nat} (h : RowsAlike k n) (hσ : ∀ r < k, σ r < k) {F G : Nat → Nat → ℝ}
    (hF : ∀ r < k, ∀ j < n, F r j = G (σ r) j) {r j : Nat} (hr : r < k) (hj : j < n) : shuffledMat k n F r j = shuffledMat k n G (σ r) j := by
  have hn : 0 < n := by omega
  have hlt := mul_add_lt hr hj
  have e := shuffle_moveRow h hσ hlt
  rw [moveRow_at _ hj] at e
  have hs := shuffle_lt hlt
  simp only [shuffledMat]
  rw [e, hF _ ((Nat.div_lt_iff_lt_mul hn).2 hs) _ (Nat.mod_lt _ hn), moveRow]
  generalize shuffle (k * n) (r * n + j) = c
  rw [Nat.mul_comm _ n, Nat.mul_add_div hn, Nat.div_eq_of_lt (Nat.mod_lt _ hn), Nat.mul_add_mod, Nat.mod_mod, Nat.add_zero]

section
variable {m q n n' : Nat} {f f' : Act} {post : List (Nat × Act)} {σ : Equiv.Perm Nat} (hσ : ∀ j < n, σ j < n)
include hσ

theorem netTangent_rename (θ δ : Nat → Nat → ℝ) : ∀ (pre : List (Nat × Act)) (k p : Nat) (a da : Nat → Nat → ℝ), p + 2 * pre.length = q →
    UnitsAlike m (lastWidth k pre) n n' → ∀ i < m, ∀ j < lastWidth k (pre ++ (n, f) :: (n', f') :: post),
    netTangent m (renameUnits q n n' σ θ) (renameUnits q n n' σ δ) k p (pre ++ (n, f) :: (n', f') :: post) a da i j =
      netTangent m θ δ k p (pre ++ (n, f) :: (n', f') :: post) a da i j := by
  intro pre
  induction pre with
  | nil =>
    intro k p a da hp hU i hi j hj
    obtain rfl : p = q := by simpa using hp
    obtain ⟨hC, hR⟩ := hU
    have hC1 : k * n ≤ 32 ∨ n ∣ 32 := hC.elim Or.inr fun h => Or.inl h.1
    have hC2 : m * n ≤ 32 ∨ n ∣ 32 := hC.elim Or.inr fun h => Or.inl h.2
    simp only [List.nil_append, netTangent]
    have hz : ∀ i, ∀ j < n, affine k a (fun r j => renameUnits p n n' σ θ p (r * n + j)) (renameUnits p n n' σ θ (p + 1)) i j =
      affine k a (fun r j => θ p (r * n + j)) (θ (p + 1)) i (σ j) := fun i j hj => affine_rename hσ θ a k i hj
    have hy : ∀ i, ∀ j < n', _ := fun i j hj => affine_rename_next hσ (q := p) (n' := n') θ (fun i j => f.fn (affine k a (fun r j => θ p (r * n + j)) (θ (p + 1)) i j))
      (fun i j => f.fn (affine k a (fun r j => renameUnits p n n' σ θ p (r * n + j)) (renameUnits p n n' σ θ (p + 1)) i j))
      (fun i j hj => by rw [hz i j hj]) i (j := j) hj
    refine netTangent_ext post n' (p + 2 + 2) _ _ _ _ (fun r hr => ?_) (fun r hr => ?_) (fun i _ j hj => ?_) (fun i hi j hj => ?_) i hi j hj
    · rw [rename_after θ (by have := coords_ge _ _ _ _ hr; omega)]
    · rw [rename_after δ (by have := coords_ge _ _ _ _ hr; omega)]
    · rw [hy i j hj]
    · rw [hy i j hj, rename_after δ (p := p + 2 + 1) (by omega)]
      congr 2
      refine Eq.trans ?_ (perm_sum hσ _)
      refine Finset.sum_congr rfl fun r hr => ?_
      rw [Finset.mem_range] at hr
      rw [hz i r hr, rename_next θ hj]
      congr 1
      · congr 1
        refine shuffledMat_columns hC2 hσ (fun i hi j hj => ?_) hi hr
        rw [hz i j hj, rename_bias δ]
        congr 2
        refine Finset.sum_congr rfl fun s hs => ?_
        rw [Finset.mem_range] at hs
        rw [rename_weights θ hj]
        congr 2
        exact shuffledMat_columns hC1 hσ (fun r hr j hj => rename_weights δ hj) hs hj
      · congr 1
        exact shuffledMat_moveRow hR hσ (fun r _ j hj => rename_next δ hj) hr hj
  | cons d pre ih =>
    obtain ⟨w, g⟩ := d
    intro k p a da hp hU i hi j hj
    simp only [List.length_cons] at hp
    simp only [List.cons_append, netTangent]
    rw [rename_before θ (p := p) (by omega), rename_before θ (p := p + 1) (by omega), rename_before δ (p := p) (by omega),
      rename_before δ (p := p + 1) (by omega)]
    exact ih w (p + 2) _ _ (by omega) hU i hi j hj

/-- a training step commutes with renaming -/
theorem shuffledDescend_rename_wide (pre : List (Nat × Act)) (hq : 2 * pre.length = q) (hn : 0 < n) (hn' : 0 < n') {k : Nat}
    (hU : UnitsAlike m (lastWidth k pre) n n') (lr : ℝ) (a y θ : Nat → Nat → ℝ) :
    shuffledDescend lr m k (pre ++ (n, f) :: (n', f') :: post) a y (renameUnits q n n' σ θ) =
      renameUnits q n n' σ (shuffledDescend lr m k (pre ++ (n, f) :: (n', f') :: post) a y θ) := by
  funext p c
  obtain ⟨c', h1, h2⟩ := rename_unit (q := q) hσ hn hn' p c
  rw [h1, shuffledDescend, shuffledDescend, h1]
  congr 2
  change lossTangent m k _ a y _ (unit p c) = lossTangent m k _ a y θ (unit p c')
  rw [← h2]
  refine Finset.sum_congr rfl fun i hi => Finset.sum_congr rfl fun j hj => ?_
  rw [netValue_rename hσ θ i pre k 0 a (by omega) j (Finset.mem_range.1 hj),
    netTangent_rename hσ θ _ pre k 0 a _ (by omega) hU i (Finset.mem_range.1 hi) j (Finset.mem_range.1 hj)]

end

/-! ## the other networks -/

theorem follow_step {m k n q p : Nat} (f : Act) {θ δ : Nat → Nat → ℝ} (hn : 0 < n) (hp : p < m * k) (hw : ∀ c, θ q c = if c = p % k * n then 1 else 0)
    (hb : ∀ j, θ (q + 1) j = 0) (hδ : δ (q + 1) 0 = 0) (D W : Nat → Nat → ℝ) :
    f.slope (affine k (fun _ _ => 0) (fun i j => θ q (i * n + j)) (θ (q + 1)) (p / k) 0) *
      ((∑ kk ∈ Finset.range k, (shuffledMat m k D (p / k) kk * θ q (kk * n + 0) + 0 * W kk 0)) + δ (q + 1) 0) =
    D (shuffle (m * k) p / k) (shuffle (m * k) p % k) := by
  have hk : 0 < k := Nat.pos_of_ne_zero fun h => by simp [h] at hp
  rw [affine_zeros _ hb, f.slope_zero, one_mul, hδ, add_zero, Finset.sum_eq_single (p % k)]
  · rw [hw, Nat.add_zero, if_pos rfl, mul_one, zero_mul, add_zero, shuffledMat, Nat.div_add_mod']
  · intro kk _ hne
    rw [hw, Nat.add_zero, if_neg fun h => hne (Nat.eq_of_mul_eq_mul_right hn h), mul_zero, zero_mul, add_zero]
  · exact fun h => absurd (Finset.mem_range.2 (Nat.mod_lt _ hk)) h

/-- For every place of a matrix of gradients there are parameters that read only this place: the element of the shuffled matrix in place `p`
is what comes out in some place. -/
theorem follow {m : Nat} : ∀ (ds : List (Nat × Act)) (n : Nat) (f : Act) (k q p : Nat), 0 < n → (∀ d ∈ ds, 0 < d.1) → p < m * k →
    ∃ (Θ : Nat → Nat → ℝ) (ρ γ : Nat), ρ < m ∧ γ < lastWidth n ds ∧ (∀ c, Θ q c = if c = p % k * n then 1 else 0) ∧ (∀ j, Θ (q + 1) j = 0) ∧
    ∀ θ : Nat → Nat → ℝ, (∀ p ≥ q, θ p = Θ p) → netValue k (layerFns θ q ((n, f) :: ds)) (fun _ _ => 0) = (fun _ _ => 0) ∧
    ∀ δ D : Nat → Nat → ℝ, (∀ p ≥ q, ∀ c, δ p c = 0) →
    netTangent m θ δ k q ((n, f) :: ds) (fun _ _ => 0) D ρ γ = D (shuffle (m * k) p / k) (shuffle (m * k) p % k) := by
  intro ds
  induction ds with
  | nil =>
    intro n f k q p hn _ hp
    have hk : 0 < k := Nat.pos_of_ne_zero fun h => by simp [h] at hp
    refine ⟨fun t c => if t = q ∧ c = p % k * n then 1 else 0, p / k, 0, (Nat.div_lt_iff_lt_mul hk).2 hp, hn, by simp, by simp, fun θ hθ => ?_⟩
    have hb : ∀ j, θ (q + 1) j = 0 := fun j => by rw [hθ _ (by omega)]; simp
    have hw : ∀ c, θ q c = if c = p % k * n then 1 else 0 := fun c => by rw [hθ _ le_rfl]; simp
    refine ⟨?_, fun δ D hδ => ?_⟩
    · simp only [layerFns, netValue, affine_zeros _ hb, f.fn_zero]
    · simp only [netTangent]
      exact follow_step f hn hp hw hb (hδ _ (by omega) _) D _
  | cons d ds ih =>
    obtain ⟨n', f'⟩ := d
    intro n f k q p hn hd hp
    have hk : 0 < k := Nat.pos_of_ne_zero fun h => by simp [h] at hp
    have hr := (Nat.div_lt_iff_lt_mul hk).2 hp
    obtain ⟨p', hp', e⟩ := shuffle_surj (show p / k * n + 0 < m * n from mul_add_lt hr hn)
    obtain ⟨Θ, ρ, γ, hρ, hγ, h1, h2, H⟩ := ih n' f' n (q + 2) p' (hd _ List.mem_cons_self) (fun d h => hd d (List.mem_cons_of_mem _ h)) hp'
    refine ⟨fun t c => if t = q then (if c = p % k * n then 1 else 0) else if t = q + 1 then 0 else Θ t c, ρ, γ, hρ, hγ, by simp, by simp, fun θ hθ => ?_⟩
    have hb : ∀ j, θ (q + 1) j = 0 := fun j => by rw [hθ _ (by omega)]; simp
    have hw : ∀ c, θ q c = if c = p % k * n then 1 else 0 := fun c => by rw [hθ _ le_rfl]; simp
    obtain ⟨H1, H2⟩ := H θ fun t ht => by
      rw [hθ t (by omega)]
      funext c
      dsimp only
      rw [if_neg (by omega), if_neg (by omega)]
    refine ⟨?_, fun δ D hδ => ?_⟩
    · rw [layerFns, netValue]
      simp only [affine_zeros _ hb, f.fn_zero]
      exact H1
    · rw [netTangent]
      simp only [affine_zeros _ hb, f.fn_zero]
      rw [H2 _ _ fun t ht => hδ t (by omega), e]
      have h3 : (p / k * n + 0) / n = p / k := by rw [Nat.add_zero, Nat.mul_div_cancel _ hn]
      have h4 : (p / k * n + 0) % n = 0 := by rw [Nat.add_zero, Nat.mul_mod_left]
      rw [h3, h4]
      have := follow_step f hn hp hw hb (hδ _ (by omega) _) D (shuffledMat k n fun i j => δ q (i * n + j))
      rwa [affine_zeros _ hb] at this

/-- the same for any place of the matrix before it is shuffled, also for no layer at all -/
theorem follow_any {m : Nat} (ds : List (Nat × Act)) (k q r c : Nat) (hd : ∀ d ∈ ds, 0 < d.1) (hr : r < m) (hc : c < k) :
    ∃ (Θ : Nat → Nat → ℝ) (ρ γ : Nat), ρ < m ∧ γ < lastWidth k ds ∧
    ∀ θ : Nat → Nat → ℝ, (∀ p ≥ q, θ p = Θ p) → netValue k (layerFns θ q ds) (fun _ _ => 0) = (fun _ _ => 0) ∧
    ∀ δ D : Nat → Nat → ℝ, (∀ p ≥ q, ∀ c, δ p c = 0) → netTangent m θ δ k q ds (fun _ _ => 0) D ρ γ = D r c := by
  cases ds with
  | nil => exact ⟨fun _ _ => 0, r, c, hr, hc, fun θ _ => ⟨rfl, fun δ D _ => rfl⟩⟩
  | cons d ds =>
    obtain ⟨n, f⟩ := d
    obtain ⟨p, hp, e⟩ := shuffle_surj (mul_add_lt hr hc)
    obtain ⟨Θ, ρ, γ, hρ, hγ, _, _, H⟩ := follow ds n f k q p (hd _ List.mem_cons_self) (fun d h => hd d (List.mem_cons_of_mem _ h)) hp
    refine ⟨Θ, ρ, γ, hρ, hγ, fun θ hθ => ⟨(H θ hθ).1, fun δ D hδ => ?_⟩⟩
    rw [(H θ hθ).2 δ D hδ, e, Nat.mul_comm r k, Nat.mul_add_div (by omega), Nat.div_eq_of_lt hc, Nat.mul_add_mod, Nat.mod_eq_of_lt hc, Nat.add_zero]

/-- if all outputs are 0, the steps for two expected outputs show the derivative of one output -/
theorem lossTangent_flip {m k : Nat} {ds : List (Nat × Act)} {a θ : Nat → Nat → ℝ} (hv : ∀ i < m, ∀ j < lastWidth k ds, netValue k (layerFns θ 0 ds) a i j = 0)
    {ρ γ : Nat} (hρ : ρ < m) (hγ : γ < lastWidth k ds) (δ : Nat → Nat → ℝ) :
    lossTangent m k ds a (fun _ _ => 0) θ δ - lossTangent m k ds a (fun i j => if i = ρ ∧ j = γ then 1 else 0) θ δ =
      2 * netTangent m θ δ k 0 ds a (fun _ _ => 0) ρ γ := by
  simp only [lossTangent]
  rw [← Finset.sum_sub_distrib, Finset.sum_eq_single_of_mem ρ (Finset.mem_range.2 hρ), ← Finset.sum_sub_distrib,
    Finset.sum_eq_single_of_mem γ (Finset.mem_range.2 hγ)]
  · rw [hv ρ hρ γ hγ]
    norm_num
    ring
  · intro j hj hne
    rw [hv ρ hρ j (Finset.mem_range.1 hj)]
    simp [hne]
  · intro i hi hne
    rw [← Finset.sum_sub_distrib]
    refine Finset.sum_eq_zero fun j hj => ?_
    rw [hv i (Finset.mem_range.1 hi) j (Finset.mem_range.1 hj)]
    simp [hne]

theorem feed_mk {θ : Nat → Nat → ℝ} : ∀ (pre : List (Nat × Act)) (q : Nat), q % 2 = 0 →
    (∀ t < q + 2 * pre.length, ∀ c, θ t c = if t % 2 = 0 ∧ c = 0 then 1 else 0) → Feed θ q pre := by
  intro pre
  induction pre with
  | nil => intros; trivial
  | cons d pre ih =>
    intro q hq h
    rw [List.length_cons] at h
    refine ⟨fun c => ?_, fun j => ?_, ih (q + 2) (by omega) fun t ht => h t (by omega)⟩
    · rw [h q (by omega)]
      simp [hq]
    · rw [h (q + 1) (by omega), if_neg (by omega)]

variable {m k n n' : Nat} {f f' : Act} {pre post : List (Nat × Act)}

/-- parameters with which one output shows what a step brings to the units of a layer -/
theorem probe (hm : 0 < m) (hk : 0 < k) (hd : ∀ d ∈ pre ++ (n, f) :: (n', f') :: post, 0 < d.1) : ∃ (θ : Nat → Nat → ℝ) (ρ γ : Nat), ρ < m ∧
    γ < lastWidth k (pre ++ (n, f) :: (n', f') :: post) ∧ (∀ c, θ (2 * pre.length) c = 0) ∧ (∀ c, θ (2 * pre.length + 1) c = 0) ∧
    (∀ c, θ (2 * pre.length + 2) c = if c = 0 then 1 else 0) ∧
    (∀ i j, netValue k (layerFns θ 0 (pre ++ (n, f) :: (n', f') :: post)) (onPath fun _ => 1) i j = 0) ∧
    ∀ δ : Nat → Nat → ℝ, (∀ t, t ≠ 2 * pre.length → t ≠ 2 * pre.length + 1 → ∀ c, δ t c = 0) →
    netTangent m θ δ k 0 (pre ++ (n, f) :: (n', f') :: post) (onPath fun _ => 1) (fun _ _ => 0) ρ γ =
      pathFn pre 1 * shuffledMat (lastWidth k pre) n (fun i j => δ (2 * pre.length) (i * n + j)) 0 (shuffle (m * n) 0 % n) +
        δ (2 * pre.length + 1) (shuffle (m * n) 0 % n) := by
  have hn : 0 < n := hd (n, f) (by simp)
  have hpre : ∀ d ∈ pre, 0 < d.1 := fun d h => hd d (by simp [h])
  obtain ⟨Θ, ρ, γ, hρ, hγ, h1, h2, H⟩ := follow (m := m) post n' f' n (2 * pre.length + 2) 0 (hd (n', f') (by simp)) (fun d h => hd d (by simp [h])) (Nat.mul_pos hm hn)
  let θ : Nat → Nat → ℝ := fun t c => if t < 2 * pre.length then (if t % 2 = 0 ∧ c = 0 then 1 else 0) else if t < 2 * pre.length + 2 then 0 else Θ t c
  have hw : ∀ c, θ (2 * pre.length) c = 0 := fun c => by simp [θ]
  have hb : ∀ c, θ (2 * pre.length + 1) c = 0 := fun c => by simp [θ]
  have hF : Feed θ 0 pre := feed_mk pre 0 rfl fun t ht c => by
    simp only [θ]
    rw [if_pos (by omega)]
  have hz : ∀ i j, affine (lastWidth k pre) (onPath fun _ => pathFn pre 1) (fun i j => θ (2 * pre.length) (i * n + j)) (θ (2 * pre.length + 1)) i j = 0 := by
    intro i j
    rw [affine_sum, hb, add_zero]
    exact Finset.sum_eq_zero fun kk _ => by rw [hw, mul_zero]
  obtain ⟨H1, H2⟩ := H θ fun t ht => by
    funext c
    simp only [θ]
    rw [if_neg (by omega), if_neg (by omega)]
  refine ⟨θ, ρ, γ, hρ, by rw [lastWidth_append]; exact hγ, hw, hb, fun c => ?_, fun i j => ?_, fun δ hδ => ?_⟩
  · have : θ (2 * pre.length + 2) c = Θ (2 * pre.length + 2) c := by simp [θ]
    rw [this, h1, Nat.zero_mod, Nat.zero_mul]
  · rw [(feed_before (m := m) ((n, f) :: (n', f') :: post) (fun _ _ => 0) pre k 0 (fun _ => 1) hF hk hpre fun _ _ _ => rfl).2, Nat.zero_add, layerFns, netValue]
    simp only [hz, f.fn_zero]
    rw [H1]
  · rw [(feed_before (m := m) ((n, f) :: (n', f') :: post) δ pre k 0 (fun _ => 1) hF hk hpre fun t ht c => hδ t (by omega) (by omega) c).1, Nat.zero_add, netTangent]
    simp only [hz, f.fn_zero, f.slope_zero, one_mul]
    rw [H2 _ _ fun t ht c => hδ t (by omega) (by omega) c, Finset.sum_eq_single 0]
    · simp [onPath, shuffledMat]
    · intro kk _ hkk
      simp [onPath, hkk, shuffledMat]
    · exact fun h => absurd (Finset.mem_range.2 (lastWidth_pos pre k hk hpre)) h

/-- parameters with which one output shows what a step brings to a weight that reads unit 0, which is the only one that is not 0 -/
theorem probe_next (hm : 0 < m) (hk : 0 < k) (hd : ∀ d ∈ pre ++ (n, f) :: (n', f') :: post, 0 < d.1) {p : Nat} (hp : p < n') :
    ∃ (θ : Nat → Nat → ℝ) (ρ γ : Nat), ρ < m ∧ γ < lastWidth k (pre ++ (n, f) :: (n', f') :: post) ∧ Feed θ 0 pre ∧
    (∀ c, θ (2 * pre.length) c = if c = 0 then 1 else 0) ∧ (∀ c, θ (2 * pre.length + 1) c = 0) ∧
    (∀ i j, netValue k (layerFns θ 0 (pre ++ (n, f) :: (n', f') :: post)) (onPath fun _ => 1) i j = 0) ∧
    0 < netTangent m θ (unit (2 * pre.length + 2) (shuffle (n * n') p)) k 0 (pre ++ (n, f) :: (n', f') :: post) (onPath fun _ => 1) (fun _ _ => 0) ρ γ := by
  have hn : 0 < n := hd (n, f) (by simp)
  have hn' : 0 < n' := by omega
  have hpre : ∀ d ∈ pre ++ [(n, f)], 0 < d.1 := fun d h => hd d (by
    rcases List.mem_append.1 h with h | h
    · simp [h]
    · simp [List.mem_singleton.1 h])
  obtain ⟨Θ, ρ, γ, hρ, hγ, H⟩ := follow_any (m := m) post n' (2 * pre.length + 4) 0 p (fun d h => hd d (by simp [h])) hm hp
  let θ : Nat → Nat → ℝ := fun t c => if t < 2 * pre.length + 2 then (if t % 2 = 0 ∧ c = 0 then 1 else 0) else if t < 2 * pre.length + 4 then 0 else Θ t c
  have hw : ∀ c, θ (2 * pre.length + 2) c = 0 := fun c => by simp [θ]
  have hb : ∀ c, θ (2 * pre.length + 2 + 1) c = 0 := fun c => by simp [θ]
  have hF : Feed θ 0 (pre ++ [(n, f)]) := feed_mk _ 0 rfl fun t ht c => by
    rw [List.length_append, List.length_singleton] at ht
    simp only [θ]
    rw [if_pos (by omega)]
  have hF' : Feed θ 0 pre := feed_mk _ 0 rfl fun t ht c => by
    simp only [θ]
    rw [if_pos (by omega)]
  have hlen : 0 + 2 * (pre ++ [(n, f)]).length = 2 * pre.length + 2 := by
    rw [List.length_append, List.length_singleton]
    ring
  have hlw : lastWidth k (pre ++ [(n, f)]) = n := lastWidth_append _ pre k
  have hds : pre ++ (n, f) :: (n', f') :: post = (pre ++ [(n, f)]) ++ (n', f') :: post := by simp
  have hz : ∀ i j, affine n (onPath fun _ => pathFn (pre ++ [(n, f)]) 1) (fun i j => θ (2 * pre.length + 2) (i * n' + j)) (θ (2 * pre.length + 2 + 1)) i j = 0 := by
    intro i j
    rw [affine_sum, hb, add_zero]
    exact Finset.sum_eq_zero fun kk _ => by rw [hw, mul_zero]
  obtain ⟨H1, H2⟩ := H θ fun t ht => by
    funext c
    simp only [θ]
    rw [if_neg (by omega), if_neg (by omega)]
  refine ⟨θ, ρ, γ, hρ, by rw [lastWidth_append]; exact hγ, hF', fun c => ?_, fun c => ?_, fun i j => ?_, ?_⟩
  · simp [θ]
  · simp only [θ]
    rw [if_pos (by omega), if_neg (by omega)]
  · rw [hds, (feed_before (m := m) ((n', f') :: post) (fun _ _ => 0) (pre ++ [(n, f)]) k 0 (fun _ => 1) hF hk hpre fun _ _ _ => rfl).2, hlen, hlw, layerFns, netValue]
    simp only [hz, f'.fn_zero]
    rw [H1]
  · rw [hds, (feed_before (m := m) ((n', f') :: post) _ (pre ++ [(n, f)]) k 0 (fun _ => 1) hF hk hpre fun t ht c => by
      simp only [unit]
      rw [if_neg (by omega)]).1, hlen, hlw, netTangent]
    simp only [hz, f'.fn_zero, f'.slope_zero, one_mul]
    rw [H2 _ _ fun t ht c => by
      simp only [unit]
      rw [if_neg (by omega)], Finset.sum_eq_single 0]
    · have : unit (2 * pre.length + 2) (shuffle (n * n') p) (2 * pre.length + 2 + 1) p = 0 := by simp [unit]
      rw [this]
      simp [onPath, shuffledMat, unit, Nat.div_add_mod', pathFn_pos]
    · intro kk _ hkk
      simp [onPath, hkk, shuffledMat]
    · exact fun h => absurd (Finset.mem_range.2 hn) h

/-- after renaming the units, a weight to which only units that are 0 contribute is not changed -/
theorem renamed_next {σ : Equiv.Perm Nat} (hσ : ∀ j < n, σ j < n) (hk : 0 < k) (hd : ∀ d ∈ pre ++ (n, f) :: (n', f') :: post, 0 < d.1) {θ y : Nat → Nat → ℝ}
    (hF : Feed θ 0 pre) (hw : ∀ c, θ (2 * pre.length) c = if c = 0 then 1 else 0) (hb : ∀ c, θ (2 * pre.length + 1) c = 0) {p : Nat} (hp : p < n * n')
    (hne : σ (p / n') ≠ 0) :
    lossTangent m k (pre ++ (n, f) :: (n', f') :: post) (onPath fun _ => 1) y (renameUnits (2 * pre.length) n n' σ θ)
      (unit (2 * pre.length + 2) (shuffle (n * n') p)) = 0 := by
  have hn : 0 < n := hd (n, f) (by simp)
  have hn' : 0 < n' := hd (n', f') (by simp)
  have hpre : ∀ d ∈ pre, 0 < d.1 := fun d h => hd d (by simp [h])
  have hF' : ∀ (ds : List (Nat × Act)) (q : Nat), q + 2 * ds.length ≤ 2 * pre.length → Feed θ q ds → Feed (renameUnits (2 * pre.length) n n' σ θ) q ds := by
    intro ds
    induction ds with
    | nil => intros; trivial
    | cons d ds ih =>
      intro q hq h
      rw [List.length_cons] at hq
      refine ⟨fun c => ?_, fun c => ?_, ih (q + 2) (by omega) h.2.2⟩
      · rw [rename_before θ (by omega), h.1]
      · rw [rename_before θ (by omega), h.2.1]
  refine Finset.sum_eq_zero fun i hi => Finset.sum_eq_zero fun j hj => ?_
  rw [Finset.mem_range] at hi hj
  rw [lastWidth_append] at hj
  rw [(feed_before (m := m) ((n, f) :: (n', f') :: post) _ pre k 0 (fun _ => 1) (hF' pre 0 (by omega) hF) hk hpre fun t ht c => by
    simp only [unit]
    rw [if_neg (by omega)]).1, Nat.zero_add]
  simp only [netTangent]
  rw [netTangent_congr m _ _ (fun _ _ => 0) post n' _ _ _ (fun _ _ => 0) (fun p hp => ?_) (fun i hi j hj => ?_) i hi j hj, netTangent_zero, mul_zero]
  · have := coords_ge _ _ _ _ hp
    simp only [unit]
    rw [if_neg (by omega)]
  · have h0 : unit (2 * pre.length + 2) (shuffle (n * n') p) (2 * pre.length + 2 + 1) j = 0 := by simp [unit]
    rw [h0, add_zero, Finset.sum_eq_zero, mul_zero]
    intro kk hkk
    rw [Finset.mem_range] at hkk
    have h1 : ∀ i j, unit (2 * pre.length + 2) (shuffle (n * n') p) (2 * pre.length) j = 0 ∧ unit (2 * pre.length + 2) (shuffle (n * n') p) (2 * pre.length + 1) i = 0 := by
      simp [unit]
    rw [affine_rename hσ θ _ _ i hkk, affine_path (lastWidth_pos pre k hk hpre) hw, hb, add_zero]
    have hd0 : ∀ (F : Nat → Nat → ℝ), (∀ i j, F i j = 0) → shuffledMat m n F i kk = 0 := fun F h => h _ _
    rw [hd0 _ fun i j => by simp [(h1 j _).1, (h1 j 0).2, shuffledMat], zero_mul, zero_add]
    by_cases hs : shuffle (n * n') (kk * n' + j) = shuffle (n * n') p
    · have := segPos_inj (mul_add_lt hkk hj) hp hs
      have hkp : p / n' = kk := by
        rw [← this, Nat.mul_comm kk n', Nat.mul_add_div hn', Nat.div_eq_of_lt hj, Nat.add_zero]
      rw [if_neg (by rwa [← hkp]), f.fn_zero, zero_mul]
    · simp [shuffledMat, unit, Nat.div_add_mod', hs]

end RL
