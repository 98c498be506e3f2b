import Verif.SpecUnits
import Verif.Lemmas.Batch
import Verif.Lemmas.Generic

/-!
# Units of a layer: lemmas
-/

namespace RL

open Spec

theorem affine_congr {k : Nat} {a a' w w' : Nat → Nat → ℝ} {b b' : Nat → ℝ} {i j j' : Nat} (h : ∀ r < k, a i r = a' i r) (hw : ∀ r < k, w r j = w' r j')
    (hb : b j = b' j') : affine k a w b i j = affine k a' w' b' i j' := by
  simp only [affine_sum]
  rw [hb]
  congr 1
  exact Finset.sum_congr rfl fun r hr => by rw [h r (Finset.mem_range.1 hr), hw r (Finset.mem_range.1 hr)]

theorem mem_weights {k q n r j : Nat} {f : Act} {ds : List (Nat × Act)} (hr : r < k) (hj : j < n) : (q, r * n + j) ∈ coords k q ((n, f) :: ds) := by
  simp only [coords, Finset.mem_union, Finset.mem_image, Finset.mem_range]
  exact Or.inl (Or.inl ⟨_, by nlinarith, rfl⟩)

theorem mem_bias {k q n j : Nat} {f : Act} {ds : List (Nat × Act)} (hj : j < n) : (q + 1, j) ∈ coords k q ((n, f) :: ds) := by
  simp only [coords, Finset.mem_union, Finset.mem_image, Finset.mem_range]
  exact Or.inl (Or.inr ⟨j, hj, rfl⟩)

theorem mem_rest {k q n : Nat} {p : Nat × Nat} {f : Act} {ds : List (Nat × Act)} (hp : p ∈ coords n (q + 2) ds) : p ∈ coords k q ((n, f) :: ds) := by
  simp only [coords, Finset.mem_union]
  exact Or.inr hp

theorem netDiff_ext {θ θ' δ δ' : Nat → Nat → ℝ} : ∀ (ds : List (Nat × Act)) (k q : Nat) (a a' da da' : Nat → Nat → ℝ) (i : Nat),
    (∀ p ∈ coords k q ds, θ p.1 p.2 = θ' p.1 p.2) → (∀ p ∈ coords k q ds, δ p.1 p.2 = δ' p.1 p.2) → (∀ j < k, a i j = a' i j) →
    (∀ j < k, da i j = da' i j) → ∀ j < lastWidth k ds, netDiff θ δ k q ds a da i j = netDiff θ' δ' k q ds a' da' i j := by
  intro ds
  induction ds with
  | nil => exact fun k q a a' da da' i _ _ _ h j hj => h j hj
  | cons d ds ih =>
    obtain ⟨n, f⟩ := d
    intro k q a a' da da' i hθ hδ ha hda j hj
    have hz : ∀ j < n, affine k a (fun i j => θ q (i * n + j)) (θ (q + 1)) i j = affine k a' (fun i j => θ' q (i * n + j)) (θ' (q + 1)) i j :=
      fun j hj => affine_congr ha (fun r hr => hθ _ (mem_weights hr hj)) (hθ _ (mem_bias hj))
    simp only [netDiff]
    refine ih n (q + 2) _ _ _ _ i (fun p hp => hθ p (mem_rest hp)) (fun p hp => hδ p (mem_rest hp)) (fun j hj => ?_) (fun j hj => ?_) j hj
    · rw [hz j hj]
    · rw [hz j hj, hδ (q + 1, j) (mem_bias hj)]
      congr 2
      refine Finset.sum_congr rfl fun r hr => ?_
      rw [Finset.mem_range] at hr
      rw [ha r hr, hda r hr, hθ (q, r * n + j) (mem_weights hr hj), hδ (q, r * n + j) (mem_weights hr hj)]

theorem coords_ge : ∀ (ds : List (Nat × Act)) (k q : Nat) (p : Nat × Nat), p ∈ coords k q ds → q ≤ p.1 := by
  intro ds
  induction ds with
  | nil => intro k q p hp; simp [coords] at hp
  | cons d ds ih =>
    obtain ⟨n, f⟩ := d
    intro k q p hp
    simp only [coords, Finset.mem_union, Finset.mem_image, Finset.mem_range] at hp
    rcases hp with (⟨c, _, rfl⟩ | ⟨c, _, rfl⟩) | hp
    · exact le_rfl
    · exact Nat.le_succ q
    · have := ih n (q + 2) p hp
      omega

/-! ## renaming units -/

theorem rename_before {q n n' : Nat} {σ : Nat → Nat} (θ : Nat → Nat → ℝ) {p : Nat} (h : p < q) : renameUnits q n n' σ θ p = θ p := by
  funext c
  rw [renameUnits, if_neg (by omega), if_neg (by omega), if_neg (by omega)]

theorem rename_after {q n n' : Nat} {σ : Nat → Nat} (θ : Nat → Nat → ℝ) {p : Nat} (h : q + 2 < p) : renameUnits q n n' σ θ p = θ p := by
  funext c
  rw [renameUnits, if_neg (by omega), if_neg (by omega), if_neg (by omega)]

theorem rename_weights {q n n' : Nat} {σ : Nat → Nat} (θ : Nat → Nat → ℝ) {r j : Nat} (hj : j < n) :
    renameUnits q n n' σ θ q (r * n + j) = θ q (r * n + σ j) := by
  rw [renameUnits, if_pos rfl, Nat.mul_comm r n, Nat.mul_add_div (by omega), Nat.div_eq_of_lt hj, Nat.mul_add_mod, Nat.mod_eq_of_lt hj, Nat.add_zero,
    Nat.mul_comm r n]

theorem rename_bias {q n n' : Nat} {σ : Nat → Nat} (θ : Nat → Nat → ℝ) {j : Nat} : renameUnits q n n' σ θ (q + 1) j = θ (q + 1) (σ j) := by
  rw [renameUnits, if_neg (by omega), if_pos rfl]

theorem rename_next {q n n' : Nat} {σ : Nat → Nat} (θ : Nat → Nat → ℝ) {r j : Nat} (hj : j < n') :
    renameUnits q n n' σ θ (q + 2) (r * n' + j) = θ (q + 2) (σ r * n' + j) := by
  rw [renameUnits, if_neg (by omega), if_neg (by omega), if_pos rfl, Nat.mul_comm r n', Nat.mul_add_div (by omega), Nat.div_eq_of_lt hj, Nat.mul_add_mod,
    Nat.mod_eq_of_lt hj, Nat.add_zero r]

section
variable {q n n' : Nat} {f f' : Act} {post : List (Nat × Act)} {σ : Equiv.Perm Nat} (hσ : ∀ j < n, σ j < n)
include hσ

theorem affine_rename (θ a : Nat → Nat → ℝ) (k i : Nat) {j : Nat} (hj : j < n) :
    affine k a (fun r j => renameUnits q n n' σ θ q (r * n + j)) (renameUnits q n n' σ θ (q + 1)) i j =
      affine k a (fun r j => θ q (r * n + j)) (θ (q + 1)) i (σ j) :=
  affine_congr (fun _ _ => rfl) (fun r _ => rename_weights θ hj) (rename_bias θ)

theorem affine_rename_next (θ a b : Nat → Nat → ℝ) (hb : ∀ i, ∀ j < n, b i j = a i (σ j)) (i : Nat) {j : Nat} (hj : j < n') :
    affine n b (fun r j => renameUnits q n n' σ θ (q + 2) (r * n' + j)) (renameUnits q n n' σ θ (q + 2 + 1)) i j =
      affine n a (fun r j => θ (q + 2) (r * n' + j)) (θ (q + 2 + 1)) i j := by
  simp only [affine_sum]
  rw [rename_after θ (p := q + 2 + 1) (by omega), ← perm_sum hσ fun r => a i r * θ (q + 2) (r * n' + j)]
  congr 1
  refine Finset.sum_congr rfl fun r hr => ?_
  rw [rename_next θ hj, hb i r (Finset.mem_range.1 hr)]

theorem netValue_rename (θ : Nat → Nat → ℝ) (i : Nat) : ∀ (pre : List (Nat × Act)) (k p : Nat) (a : Nat → Nat → ℝ), p + 2 * pre.length = q →
    ∀ j < lastWidth k (pre ++ (n, f) :: (n', f') :: post),
    netValue k (layerFns (renameUnits q n n' σ θ) p (pre ++ (n, f) :: (n', f') :: post)) a i j =
      netValue k (layerFns θ p (pre ++ (n, f) :: (n', f') :: post)) a i j := by
  intro pre
  induction pre with
  | nil =>
    intro k p a hp j hj
    obtain rfl : p = q := by simpa using hp
    simp only [List.nil_append, layerFns, netValue]
    refine netValue_congr post n' (p + 2 + 2) _ _ i (fun r hr => ?_) (fun j hj => ?_) j hj
    · rw [rename_after θ (by have := coords_ge _ _ _ _ hr; omega)]
    · rw [affine_rename_next hσ θ (fun i j => f.fn (affine k a (fun r j => θ p (r * n + j)) (θ (p + 1)) i j)) _ (fun i j hj => by rw [affine_rename hσ θ a k i hj]) i hj]
  | cons d pre ih =>
    obtain ⟨w, g⟩ := d
    intro k p a hp j hj
    simp only [List.length_cons] at hp
    simp only [List.cons_append, layerFns, netValue]
    rw [rename_before θ (p := p) (by omega), rename_before θ (p := p + 1) (by omega)]
    exact ih w (p + 2) _ (by omega) j hj

theorem netDiff_rename (θ δ : Nat → Nat → ℝ) (i : Nat) : ∀ (pre : List (Nat × Act)) (k p : Nat) (a da : Nat → Nat → ℝ), p + 2 * pre.length = q →
    ∀ j < lastWidth k (pre ++ (n, f) :: (n', f') :: post),
    netDiff (renameUnits q n n' σ θ) (renameUnits q n n' σ δ) k p (pre ++ (n, f) :: (n', f') :: post) a da i j =
      netDiff θ δ k p (pre ++ (n, f) :: (n', f') :: post) a da i j := by
  intro pre
  induction pre with
  | nil =>
    intro k p a da hp j hj
    obtain rfl : p = q := by simpa using hp
    simp only [List.nil_append, netDiff]
    have hz : ∀ i, ∀ j < n, affine k a (fun r j => renameUnits p n n' σ θ p (r * n + j)) (renameUnits p n n' σ θ (p + 1)) i j =
      affine k a (fun r j => θ p (r * n + j)) (θ (p + 1)) i (σ j) := fun i j hj => affine_rename hσ θ a k i hj
    have hy : ∀ j < n', _ := fun j hj => affine_rename_next hσ (q := p) (n' := n') θ (fun i j => f.fn (affine k a (fun r j => θ p (r * n + j)) (θ (p + 1)) i j))
      (fun i j => f.fn (affine k a (fun r j => renameUnits p n n' σ θ p (r * n + j)) (renameUnits p n n' σ θ (p + 1)) i j))
      (fun i j hj => by rw [hz i j hj]) i (j := j) hj
    refine netDiff_ext post n' (p + 2 + 2) _ _ _ _ i (fun r hr => ?_) (fun r hr => ?_) (fun j hj => ?_) (fun j hj => ?_) j hj
    · rw [rename_after θ (by have := coords_ge _ _ _ _ hr; omega)]
    · rw [rename_after δ (by have := coords_ge _ _ _ _ hr; omega)]
    · rw [hy j hj]
    · rw [hy j hj, rename_after δ (p := p + 2 + 1) (by omega)]
      congr 2
      refine Eq.trans ?_ (perm_sum hσ _)
      refine Finset.sum_congr rfl fun r hr => ?_
      rw [Finset.mem_range] at hr
      rw [hz i r hr, rename_next θ hj, rename_next δ hj, rename_bias δ]
      congr 4
      refine Finset.sum_congr rfl fun s _ => ?_
      rw [rename_weights θ hr, rename_weights δ hr]
  | cons d pre ih =>
    obtain ⟨w, g⟩ := d
    intro k p a da hp j hj
    simp only [List.length_cons] at hp
    simp only [List.cons_append, netDiff]
    rw [rename_before θ (p := p) (by omega), rename_before θ (p := p + 1) (by omega), rename_before δ (p := p) (by omega),
      rename_before δ (p := p + 1) (by omega)]
    exact ih w (p + 2) _ _ (by omega) j hj

theorem netLoss_rename (pre : List (Nat × Act)) (hq : 2 * pre.length = q) (m k : Nat) (a y θ : Nat → Nat → ℝ) :
    netLoss m k (pre ++ (n, f) :: (n', f') :: post) a y (renameUnits q n n' σ θ) = netLoss m k (pre ++ (n, f) :: (n', f') :: post) a y θ := by
  refine Finset.sum_congr rfl fun i _ => Finset.sum_congr rfl fun j hj => ?_
  rw [netValue_rename hσ θ i pre k 0 a (by omega) j (Finset.mem_range.1 hj)]

theorem lossDiff_rename (pre : List (Nat × Act)) (hq : 2 * pre.length = q) (m k : Nat) (a y θ δ : Nat → Nat → ℝ) :
    lossDiff m k (pre ++ (n, f) :: (n', f') :: post) a y (renameUnits q n n' σ θ) (renameUnits q n n' σ δ) =
      lossDiff m k (pre ++ (n, f) :: (n', f') :: post) a y θ δ := by
  refine Finset.sum_congr rfl fun i _ => Finset.sum_congr rfl fun j hj => ?_
  rw [netValue_rename hσ θ i pre k 0 a (by omega) j (Finset.mem_range.1 hj), netDiff_rename hσ θ δ i pre k 0 a _ (by omega) j (Finset.mem_range.1 hj)]

/-- a renamed unit vector -/
theorem rename_unit (hn : 0 < n) (hn' : 0 < n') (p c : Nat) : ∃ c', (∀ θ : Nat → Nat → ℝ, renameUnits q n n' σ θ p c = θ p c') ∧
    renameUnits q n n' σ (unit p c') = unit p c := by
  have inj1 : ∀ c c', c / n * n + σ (c % n) = c' / n * n + σ (c' % n) → c = c' := by
    intro c c' h
    have h1 := hσ _ (Nat.mod_lt c hn)
    have h2 := hσ _ (Nat.mod_lt c' hn)
    have h3 : c / n = c' / n := by
      have := congrArg (· / n) h
      simpa [Nat.mul_comm _ n, Nat.mul_add_div hn, Nat.div_eq_of_lt h1, Nat.div_eq_of_lt h2] using this
    have h4 : c % n = c' % n := by
      rw [h3] at h
      exact σ.injective (Nat.add_left_cancel h)
    rw [← Nat.div_add_mod c n, ← Nat.div_add_mod c' n, h3, h4]
  have inj2 : ∀ c c', σ (c / n') * n' + c % n' = σ (c' / n') * n' + c' % n' → c = c' := by
    intro c c' h
    have h1 := Nat.mod_lt c hn'
    have h2 := Nat.mod_lt c' hn'
    have h3 : σ (c / n') = σ (c' / n') := by
      have := congrArg (· / n') h
      simpa [Nat.mul_comm _ n', Nat.mul_add_div hn', Nat.div_eq_of_lt h1, Nat.div_eq_of_lt h2] using this
    have h4 : c % n' = c' % n' := by
      rw [h3] at h
      exact Nat.add_left_cancel h
    rw [← Nat.div_add_mod c n', ← Nat.div_add_mod c' n', σ.injective h3, h4]
  by_cases h0 : p = q
  · subst h0
    refine ⟨c / n * n + σ (c % n), fun θ => by rw [renameUnits, if_pos rfl], ?_⟩
    funext p' c'
    by_cases hp : p' = p
    · subst hp
      rw [renameUnits, if_pos rfl]
      simp only [unit, true_and]
      congr 1
      exact propext ⟨inj1 _ _, fun h => by rw [h]⟩
    · have : unit p c p' c' = 0 := by simp [unit, hp]
      rw [this, renameUnits, if_neg hp]
      simp [unit, hp]
  by_cases h1 : p = q + 1
  · subst h1
    refine ⟨σ c, fun θ => rename_bias θ, ?_⟩
    funext p' c'
    by_cases hp : p' = q + 1
    · subst hp
      rw [rename_bias]
      simp [unit]
    · have : unit (q + 1) c p' c' = 0 := by simp [unit, hp]
      rw [this, renameUnits]
      simp [unit, hp]
  by_cases h2 : p = q + 2
  · subst h2
    refine ⟨σ (c / n') * n' + c % n', fun θ => by rw [renameUnits, if_neg (by omega), if_neg (by omega), if_pos rfl], ?_⟩
    funext p' c'
    by_cases hp : p' = q + 2
    · subst hp
      rw [renameUnits, if_neg (by omega), if_neg (by omega), if_pos rfl]
      simp only [unit, true_and]
      congr 1
      exact propext ⟨inj2 _ _, fun h => by rw [h]⟩
    · have : unit (q + 2) c p' c' = 0 := by simp [unit, hp]
      rw [this, renameUnits]
      simp [unit, hp]
  · refine ⟨c, fun θ => by rw [renameUnits, if_neg h0, if_neg h1, if_neg h2], ?_⟩
    funext p' c'
    rw [renameUnits]
    simp only [unit]
    split
    · rename_i h
      rw [if_neg (by omega), if_neg (by omega)]
    · split
      · rw [if_neg (by omega), if_neg (by omega)]
      · split
        · rw [if_neg (by omega), if_neg (by omega)]
        · rfl

/-- a training step commutes with renaming -/
theorem shuffledDescend_rename (pre : List (Nat × Act)) (hq : 2 * pre.length = q) (hn : 0 < n) (hn' : 0 < n') {m k : Nat}
    (hS : SmallNet m k (pre ++ (n, f) :: (n', f') :: post)) (lr : ℝ) (a y θ : Nat → Nat → ℝ) :
    shuffledDescend lr m k (pre ++ (n, f) :: (n', f') :: post) a y (renameUnits q n n' σ θ) =
      renameUnits q n n' σ (shuffledDescend lr m k (pre ++ (n, f) :: (n', f') :: post) a y θ) := by
  funext p c
  obtain ⟨c', h1, h2⟩ := rename_unit (q := q) hσ hn hn' p c
  rw [h1, shuffledDescend, shuffledDescend, h1, lossTangent_small hS, lossTangent_small hS]
  congr 2
  have := lossDiff_rename (n' := n') (f := f) (f' := f') (post := post) hσ pre hq m k a y θ (unit p c')
  rw [h2] at this
  exact this

end

theorem layersAre_congr {h : Heap ℝ} {θ θ' : Nat → Nat → ℝ} : ∀ (ds : List (Nat × Act)) (ls : List (Linear ℝ)) (k q : Nat),
    (∀ p ∈ coords k q ds, θ p.1 p.2 = θ' p.1 p.2) → LayersAre h k ls (layerFns θ q ds) → LayersAre h k ls (layerFns θ' q ds) := by
  intro ds
  induction ds with
  | nil => exact fun ls k q _ h => h
  | cons d ds ih =>
    obtain ⟨n, f⟩ := d
    intro ls k q hc h
    cases ls with
    | nil => exact h.elim
    | cons l ls =>
      obtain ⟨⟨hn, ha, w, b, hw, hb, mw, rb⟩, r⟩ := h
      refine ⟨⟨hn, ha, w, b, hw, hb, ⟨mw.1, mw.2.1, fun i hi j hj => ?_⟩, rb.1, rb.2.1, fun j hj => ?_⟩, ih ls n (q + 2) (fun p hp => hc p (mem_rest hp)) r⟩
      · rw [mw.2.2 i hi j hj]
        exact congrArg some (hc _ (mem_weights hi hj))
      · rw [rb.2.2 j hj]
        exact congrArg some (hc _ (mem_bias hj))

theorem Spec.Training.congr {h : Heap ℝ} {mlp : Mlp ℝ} {x y m k : Nat} {ds : List (Nat × Act)} {a b θ θ' : Nat → Nat → ℝ}
    (ht : Training h mlp x y m k ds a b θ) (hc : ∀ p ∈ coords k 0 ds, θ p.1 p.2 = θ' p.1 p.2) : Training h mlp x y m k ds a b θ' :=
  ⟨ht.reachable, ⟨layersAre_congr ds _ k 0 hc ht.net.layers, ht.net.acts⟩, ht.input, ht.expected, ht.ready⟩

/-- the input width of the layer after `pre` -/
theorem coords_at (pre ds : List (Nat × Act)) : ∀ (k q : Nat) (p : Nat × Nat), p ∈ coords k q (pre ++ ds) →
    p.1 < q + 2 * pre.length ∨ p ∈ coords (lastWidth k pre) (q + 2 * pre.length) ds := by
  induction pre with
  | nil => exact fun k q p hp => Or.inr hp
  | cons d pre ih =>
    obtain ⟨w, g⟩ := d
    intro k q p hp
    simp only [List.cons_append, coords, Finset.mem_union, Finset.mem_image, Finset.mem_range] at hp
    simp only [List.length_cons, lastWidth]
    rcases hp with (⟨c, _, rfl⟩ | ⟨c, _, rfl⟩) | hp
    · exact Or.inl (by omega)
    · exact Or.inl (by omega)
    · rcases ih w (q + 2) p hp with h | h
      · exact Or.inl (by omega)
      · exact Or.inr (by rwa [show q + 2 * (pre.length + 1) = q + 2 + 2 * pre.length from by omega])

theorem mem_coords_at (pre ds : List (Nat × Act)) : ∀ (k q : Nat) (p : Nat × Nat), p ∈ coords (lastWidth k pre) (q + 2 * pre.length) ds →
    p ∈ coords k q (pre ++ ds) := by
  induction pre with
  | nil => exact fun k q p hp => hp
  | cons d pre ih =>
    obtain ⟨w, g⟩ := d
    intro k q p hp
    refine mem_rest (ih w (q + 2) p ?_)
    rwa [List.length_cons, show q + 2 * (pre.length + 1) = q + 2 + 2 * pre.length from by omega] at hp

/-- exchanging two units with the same parameters changes nothing -/
theorem rename_same {pre post : List (Nat × Act)} {k n n' : Nat} {f f' : Act} {θ : Nat → Nat → ℝ} {j j' : Nat}
    (h : SameUnits (lastWidth k pre) (2 * pre.length) n n' θ j j') :
    ∀ p ∈ coords k 0 (pre ++ (n, f) :: (n', f') :: post), θ p.1 p.2 = renameUnits (2 * pre.length) n n' (Equiv.swap j j') θ p.1 p.2 := by
  obtain ⟨h1, h2, h3⟩ := h
  intro p hp
  rcases coords_at pre _ k 0 p hp with hlt | hp
  · rw [rename_before θ (by omega)]
  · rw [Nat.zero_add] at hp
    simp only [coords, Finset.mem_union, Finset.mem_image, Finset.mem_range] at hp
    have sw : ∀ F : Nat → ℝ, F j = F j' → ∀ r, F r = F (Equiv.swap j j' r) := by
      intro F hF r
      by_cases e1 : r = j
      · rw [e1, Equiv.swap_apply_left, hF]
      by_cases e2 : r = j'
      · rw [e2, Equiv.swap_apply_right, hF]
      rw [Equiv.swap_apply_of_ne_of_ne e1 e2]
    rcases hp with (⟨c, hc, rfl⟩ | ⟨c, hc, rfl⟩) | (⟨c, hc, rfl⟩ | ⟨c, hc, rfl⟩) | hp
    · have hn : 0 < n := Nat.pos_of_ne_zero fun h0 => by simp [h0] at hc
      rw [← Nat.div_add_mod' c n]
      dsimp only
      rw [rename_weights θ (Nat.mod_lt c hn)]
      exact sw (fun r => θ (2 * pre.length) (c / n * n + r)) (h1 _ (Nat.div_lt_of_lt_mul (by rwa [Nat.mul_comm]))) _
    · dsimp only
      rw [rename_bias]
      exact sw _ h2 c
    · have hn : 0 < n' := Nat.pos_of_ne_zero fun h0 => by simp [h0] at hc
      rw [← Nat.div_add_mod' c n']
      dsimp only
      rw [rename_next θ (Nat.mod_lt c hn)]
      exact sw (fun r => θ (2 * pre.length + 2) (r * n' + c % n')) (h3 _ (Nat.mod_lt c hn)) _
    · dsimp only
      rw [rename_after θ (by omega)]
    · have := coords_ge _ _ _ _ hp
      rw [rename_after θ (by omega)]

theorem same_of_rename {pre post : List (Nat × Act)} {k n n' : Nat} {f f' : Act} {θ : Nat → Nat → ℝ} {j j' : Nat} (hj : j < n)
    (h : ∀ p ∈ coords k 0 (pre ++ (n, f) :: (n', f') :: post), θ p.1 p.2 = renameUnits (2 * pre.length) n n' (Equiv.swap j j') θ p.1 p.2) :
    SameUnits (lastWidth k pre) (2 * pre.length) n n' θ j j' := by
  have hm : ∀ p ∈ coords (lastWidth k pre) (2 * pre.length) ((n, f) :: (n', f') :: post),
      θ p.1 p.2 = renameUnits (2 * pre.length) n n' (Equiv.swap j j') θ p.1 p.2 :=
    fun p hp => h p (mem_coords_at pre _ k 0 p (by rwa [Nat.zero_add]))
  refine ⟨fun r hr => ?_, ?_, fun c hc => ?_⟩
  · have := hm _ (mem_weights hr hj)
    rwa [rename_weights θ hj, Equiv.swap_apply_left] at this
  · have := hm _ (mem_bias hj)
    rwa [rename_bias θ, Equiv.swap_apply_left] at this
  · have := hm _ (mem_rest (mem_weights hj hc))
    rwa [rename_next θ hc, Equiv.swap_apply_left] at this

/-! ## units with a negative sum -/

/-- a weight of a unit of the first layer that is 0 in all rows does not matter -/
theorem lossTangent_dead {m k n : Nat} {ds : List (Nat × Act)} {a y θ δ : Nat → Nat → ℝ} {j : Nat}
    (hdead : ∀ i < m, affine k a (fun r j => θ 0 (r * n + j)) (θ 1) i j < 0)
    (hδ : ∀ p ∈ coords n 2 ds, δ p.1 p.2 = 0) (hw : ∀ r < k, ∀ j' < n, j' ≠ j → shuffledMat k n (fun r j => δ 0 (r * n + j)) r j' = 0)
    (hb : ∀ j' < n, j' ≠ j → δ 1 j' = 0) : lossTangent m k ((n, .relu) :: ds) a y θ δ = 0 := by
  refine Finset.sum_eq_zero fun i hi => Finset.sum_eq_zero fun c hc => ?_
  rw [Finset.mem_range] at hi hc
  simp only [netTangent]
  rw [netTangent_congr m θ δ (fun _ _ => 0) ds n (0 + 2) _ _ (fun _ _ => 0) hδ (fun i hi j' hj' => ?_) i hi c hc, netTangent_zero, mul_zero]
  by_cases hj : j' = j
  · subst hj
    simp only [Act.slope, Nat.zero_add]
    rw [if_pos (hdead i hi), zero_mul]
  · rw [Finset.sum_eq_zero, hb j' hj' hj, add_zero, mul_zero]
    intro r hr
    rw [hw r (Finset.mem_range.1 hr) j' hj' hj, mul_zero, add_zero]
    simp [shuffledMat]

/-- positions stay in their column if the number of columns divides 32 -/
theorem shuffle_column {k n c : Nat} (h : k * n ≤ 32 ∨ n ∣ 32) (hc : c < k * n) : shuffle (k * n) c % n = c % n := by
  rcases h with h | h
  · rw [shuffle_small h hc]
  · have h1 : c % 32 % n = c % n := Nat.mod_mod_of_dvd c h
    unfold shuffle
    by_cases hle : 32 * (c / 32 + 1) ≤ k * n
    · rw [Nat.min_eq_left hle, Nat.add_mod, Nat.mod_eq_zero_of_dvd (Nat.dvd_sub (Nat.dvd_mul_left n k) (h.mul_right _)), Nat.zero_add,
        Nat.mod_mod, h1]
    · rw [Nat.min_eq_right (by omega), Nat.sub_self, Nat.zero_add, h1]

end RL
