import Verif.Lemmas.Order

/-!
# The order of the rows of a batch: lemmas
-/

namespace RL

open Spec

variable {m k n : Nat} {f : Act} {ds : List (Nat × Act)} {a y θ : Nat → Nat → ℝ} {σ : Equiv.Perm Nat}

/-! ## networks for which the order does not matter -/

theorem shuffledMat_rows (h : RowsAlike m k) (hσ : ∀ i < m, σ i < m) (d : Nat → Nat → ℝ) {i j : Nat} (hi : i < m) (hj : j < k) :
    shuffledMat m k (fun i => d (σ i)) i j = shuffledMat m k d (σ i) j := by
  have e := shuffle_moveRow h hσ (mul_add_lt hi hj)
  have hk : 0 < k := by omega
  have hm := Nat.mod_lt (shuffle (m * k) (i * k + j)) hk
  rw [moveRow_at _ hj] at e
  simp only [shuffledMat, e, moveRow]
  generalize shuffle (m * k) (i * k + j) = c at *
  rw [Nat.mul_comm _ k, Nat.mul_add_div hk, Nat.div_eq_of_lt hm, Nat.add_zero, Nat.mul_add_mod, Nat.mod_eq_of_lt hm]

theorem netTangent_rows (hσ : ∀ i < m, σ i < m) (δ : Nat → Nat → ℝ) : ∀ (ds : List (Nat × Act)) (k q : Nat) (a da : Nat → Nat → ℝ),
    (∀ d ∈ ds.dropLast, RowsAlike m d.1) → (ds ≠ [] → RowsAlike m k ∨ da = fun _ _ => 0) → ∀ i < m, ∀ j < lastWidth k ds,
    netTangent m θ δ k q ds (fun i => a (σ i)) (fun i => da (σ i)) i j = netTangent m θ δ k q ds a da (σ i) j := by
  intro ds
  induction ds with
  | nil => intros; rfl
  | cons d ds ih =>
    obtain ⟨n, f⟩ := d
    intro k q a da hS hk i hi j hj
    simp only [netTangent]
    rw [← ih n (q + 2) (fun i j => f.fn (affine k a (fun i j => θ q (i * n + j)) (θ (q + 1)) i j))
      (fun i j => f.slope (affine k a (fun i j => θ q (i * n + j)) (θ (q + 1)) i j) *
        ((∑ kk ∈ Finset.range k, (shuffledMat m k da i kk * θ q (kk * n + j) + a i kk * shuffledMat k n (fun i j => δ q (i * n + j)) kk j)) + δ (q + 1) j))
      (fun d hd => hS d ?_) (fun hne => .inl (hS (n, f) ?_)) i hi j hj]
    · refine netTangent_ext ds n (q + 2) _ _ _ _ (fun _ _ => rfl) (fun _ _ => rfl) (fun i _ j _ => ?_) (fun i hi j _ => ?_) i hi j hj
      · simp only [affine_sum]
      · simp only [affine_sum]
        congr 2
        refine Finset.sum_congr rfl fun kk hkk => ?_
        rcases hk (by simp) with h | rfl
        · rw [shuffledMat_rows h hσ da hi (Finset.mem_range.1 hkk)]
        · simp [shuffledMat]
    · cases ds with
      | nil => simp at hd
      | cons e ds => rw [List.dropLast_cons₂]; exact List.mem_cons_of_mem _ hd
    · cases ds with
      | nil => exact absurd rfl hne
      | cons e ds => rw [List.dropLast_cons₂]; exact List.mem_cons_self

theorem shuffledDescend_rows (hS : ∀ d ∈ ds.dropLast, RowsAlike m d.1) (hσ : ∀ i < m, σ i < m) (lr : ℝ) (a y θ : Nat → Nat → ℝ) :
    shuffledDescend lr m k ds (fun i => a (σ i)) (fun i => y (σ i)) θ = shuffledDescend lr m k ds a y θ := by
  funext q c
  simp only [shuffledDescend]
  congr 2
  simp only [lossTangent]
  rw [← perm_sum hσ fun i => ∑ j ∈ Finset.range (lastWidth k ds), (if netValue k (layerFns θ 0 ds) a i j < y i j then -1 else 1) *
    netTangent m θ (fun q' c' => if q' = q ∧ c' = c then 1 else 0) k 0 ds a (fun _ _ => 0) i j]
  refine Finset.sum_congr rfl fun i hi => Finset.sum_congr rfl fun j hj => ?_
  rw [Finset.mem_range] at hi hj
  rw [netValue_rows θ ds k (a := fun i => a (σ i)) (a' := a) (i := i) (i' := σ i) (fun _ _ => rfl) hj,
    ← netTangent_rows hσ _ ds k 0 a (fun _ _ => 0) hS (fun _ => .inr rfl) i hi j hj]

/-! ## the other networks -/

/-- unit 0 of every layer reads unit 0 of the one before -/
def Feed (θ : Nat → Nat → ℝ) : Nat → List (Nat × Act) → Prop
  | _, [] => True
  | q, _ :: ds => (∀ c, θ q c = if c = 0 then 1 else 0) ∧ (∀ j, θ (q + 1) j = 0) ∧ Feed θ (q + 2) ds

/-- unit 0 of every layer reads all units of the one before -/
def Funnel (θ : Nat → Nat → ℝ) : Nat → List (Nat × Act) → Prop
  | _, [] => True
  | q, (n, _) :: ds => (∀ c, θ q c = if c % n = 0 then 1 else 0) ∧ (∀ j, θ (q + 1) j = 0) ∧ Funnel θ (q + 2) ds

theorem Spec.Act.slope_zero (f : Act) : f.slope 0 = 1 := by
  cases f <;> simp [Act.slope]

theorem feed_before (ds : List (Nat × Act)) (δ : Nat → Nat → ℝ) : ∀ (pre : List (Nat × Act)) (k q : Nat) (x : Nat → ℝ), Feed θ q pre → 0 < k → (∀ d ∈ pre, 0 < d.1) →
    (∀ p < q + 2 * pre.length, ∀ c, δ p c = 0) →
    netTangent m θ δ k q (pre ++ ds) (onPath x) (fun _ _ => 0) =
      netTangent m θ δ (lastWidth k pre) (q + 2 * pre.length) ds (onPath fun i => pathFn pre (x i)) (fun _ _ => 0) ∧
    netValue k (layerFns θ q (pre ++ ds)) (onPath x) =
      netValue (lastWidth k pre) (layerFns θ (q + 2 * pre.length) ds) (onPath fun i => pathFn pre (x i)) := by
  intro pre
  induction pre with
  | nil => intros; exact ⟨rfl, rfl⟩
  | cons d pre ih =>
    obtain ⟨n, f⟩ := d
    intro k q x hf hk hd hδ
    obtain ⟨hw, hb, hf⟩ := hf
    have hout : (fun i j => f.fn (affine k (onPath x) (fun i j => θ q (i * n + j)) (θ (q + 1)) i j)) = onPath fun i => f.fn (x i) := by
      funext i j
      rw [affine_path hk hw, hb, add_zero, onPath]
      split
      · rfl
      · exact f.fn_zero
    have hda : (fun i j => f.slope (affine k (onPath x) (fun i j => θ q (i * n + j)) (θ (q + 1)) i j) *
        ((∑ kk ∈ Finset.range k, (shuffledMat m k (fun _ _ => 0) i kk * θ q (kk * n + j) +
          onPath x i kk * shuffledMat k n (fun i j => δ q (i * n + j)) kk j)) + δ (q + 1) j)) = fun _ _ => 0 := by
      funext i j
      rw [List.length_cons] at hδ
      rw [Finset.sum_eq_zero, hδ (q + 1) (by omega), add_zero, mul_zero]
      intro kk _
      simp [shuffledMat, hδ q (by omega)]
    obtain ⟨i1, i2⟩ := ih n (q + 2) (fun i => f.fn (x i)) hf (hd _ List.mem_cons_self) (fun d h => hd d (List.mem_cons_of_mem _ h)) (fun p hp c => hδ p (by
      rw [List.length_cons]
      omega) c)
    rw [List.length_cons, show q + 2 * (pre.length + 1) = q + 2 + 2 * pre.length by ring]
    simp only [List.cons_append, netTangent, layerFns, netValue, lastWidth, pathFn, hout, hda]
    exact ⟨i1, i2⟩

theorem affine_zeros {k : Nat} (w : Nat → Nat → ℝ) {b : Nat → ℝ} (hb : ∀ j, b j = 0) (i j : Nat) : affine k (fun _ _ => 0) w b i j = 0 := by
  rw [affine_sum, hb]
  simp

theorem funnel_value : ∀ (ds : List (Nat × Act)) (k q : Nat), Funnel θ q ds → netValue k (layerFns θ q ds) (fun _ _ => 0) = fun _ _ => 0 := by
  intro ds
  induction ds with
  | nil => intros; rfl
  | cons d ds ih =>
    obtain ⟨n, f⟩ := d
    intro k q hf
    simp only [layerFns, netValue, affine_zeros _ hf.2.1, f.fn_zero]
    exact ih n (q + 2) hf.2.2

/-- a matrix with one element that is not 0, in the place `(r, c)`, shuffled: sums of its rows -/
theorem shuffledMat_single {r c p : Nat} (hc : c < n) (hp : p < m * n) (e : shuffle (m * n) p = r * n + c) (v : ℝ) {i : Nat} (hi : i < m) :
    ∑ kk ∈ Finset.range n, shuffledMat m n (fun i j => if i = r ∧ j = c then v else 0) i kk = if i = p / n then v else 0 := by
  have hn : 0 < n := by omega
  have key : ∀ kk < n, shuffledMat m n (fun i j => if i = r ∧ j = c then v else 0) i kk = if i * n + kk = p then v else 0 := by
    intro kk hkk
    have hlt := mul_add_lt hi hkk
    simp only [shuffledMat]
    by_cases h : i * n + kk = p
    · rw [if_pos h, if_pos]
      rw [h, e, Nat.mul_comm r n, Nat.mul_add_div hn, Nat.div_eq_of_lt hc, Nat.add_zero, Nat.mul_add_mod, Nat.mod_eq_of_lt hc]
      exact ⟨rfl, rfl⟩
    · rw [if_neg h, if_neg]
      rintro ⟨h1, h2⟩
      apply h
      refine segPos_inj hlt hp ?_
      change shuffle (m * n) _ = shuffle (m * n) _
      rw [e, ← Nat.div_add_mod' (shuffle (m * n) (i * n + kk)) n, h1, h2]
  rw [Finset.sum_congr rfl fun kk hkk => key kk (Finset.mem_range.1 hkk)]
  have hdm := Nat.div_add_mod' p n
  by_cases h : i = p / n
  · rw [if_pos h, Finset.sum_eq_single (p % n)]
    · rw [if_pos (by rw [h]; exact hdm)]
    · intro kk _ hne
      rw [if_neg]
      rw [h]
      omega
    · intro h
      exact absurd (Finset.mem_range.2 (Nat.mod_lt _ hn)) h
  · rw [if_neg h, Finset.sum_eq_zero]
    intro kk hkk
    rw [if_neg]
    intro h'
    apply h
    rw [← h', Nat.mul_comm, Nat.mul_add_div hn, Nat.div_eq_of_lt (Finset.mem_range.1 hkk), Nat.add_zero]

/-- what renames rows in such a way that no row is special -/
structure Fair (m : Nat) (R : Nat → Nat) : Prop where
  lt : ∀ r < m, R r < m
  inj : ∀ r < m, ∀ r' < m, R r = R r' → r = r'
  fair : ∀ σ : Equiv.Perm Nat, (∀ i < m, σ i < m) → ∀ r < m, R (σ r) = σ (R r)

theorem fair_rows (h : RowsAlike m n) (hn : 0 < n) : ∃ R, Fair m R ∧ (m * n ≤ 32 → ∀ r < m, R r = r) ∧ ∀ r < m, ∀ i < m, ∀ v : ℝ,
    ∑ kk ∈ Finset.range n, shuffledMat m n (fun i j => if i = r ∧ j = 0 then v else 0) i kk = if i = R r then v else 0 := by
  have hex : ∀ r, ∃ p, r < m → p < m * n ∧ shuffle (m * n) p = r * n := by
    intro r
    by_cases hr : r < m
    · obtain ⟨p, hp, e⟩ := shuffle_surj (show r * n + 0 < m * n from mul_add_lt hr hn)
      exact ⟨p, fun _ => ⟨hp, by simpa using e⟩⟩
    · exact ⟨0, fun h => absurd h hr⟩
  choose P hP using hex
  have hlt : ∀ r < m, P r / n < m := fun r hr => (Nat.div_lt_iff_lt_mul hn).2 (hP r hr).1
  have hfair : ∀ σ : Equiv.Perm Nat, (∀ i < m, σ i < m) → ∀ r < m, P (σ r) / n = σ (P r / n) := by
    intro σ hσ r hr
    obtain ⟨h1, h2⟩ := hP r hr
    obtain ⟨h3, h4⟩ := hP (σ r) (hσ r hr)
    have e := shuffle_moveRow h hσ h1
    rw [h2, show r * n = r * n + 0 from rfl, moveRow_at _ hn, Nat.add_zero, ← h4] at e
    have h5 : moveRow n σ (P r) < m * n := mul_add_lt (hσ _ (hlt r hr)) (Nat.mod_lt _ hn)
    rw [← segPos_inj h5 h3 e, moveRow, Nat.mul_comm _ n, Nat.mul_add_div hn, Nat.div_eq_of_lt (Nat.mod_lt _ hn), Nat.add_zero]
  refine ⟨fun r => P r / n, ⟨hlt, fun r hr r' hr' e => ?_, hfair⟩, fun h r hr => ?_, fun r hr i hi v => shuffledMat_single hn (hP r hr).1 (by rw [(hP r hr).2, Nat.add_zero]) v hi⟩
  on_goal 2 =>
    have := (hP r hr).2
    rw [shuffle_small h (hP r hr).1] at this
    simp only [this, Nat.mul_div_cancel _ hn]
  have hsw : r < 2 → r' < 2 → m = 2 → r = r' := by
    intro h1 h2 hm
    subst hm
    by_contra hne
    have h3 := hfair (Equiv.swap 0 1) (by decide) r hr
    have h4 : Equiv.swap 0 1 r = r' := by
      rcases (show r = 0 ∧ r' = 1 ∨ r = 1 ∧ r' = 0 by omega) with ⟨rfl, rfl⟩ | ⟨rfl, rfl⟩ <;> decide
    rw [h4] at h3
    have h5 := hlt r hr
    rw [← e] at h3
    generalize P r / n = z at *
    rcases (show z = 0 ∨ z = 1 by omega) with rfl | rfl <;> simp at h3
  rcases h with h | rfl | ⟨rfl, _⟩
  · have : ∀ r < m, P r = r * n := by
      intro r hr
      have := (hP r hr).2
      rwa [shuffle_small h (hP r hr).1] at this
    simpa [this r hr, this r' hr', Nat.mul_div_cancel _ hn] using e
  · omega
  · exact hsw hr hr' rfl

theorem fair_id : Fair m id := ⟨fun _ h => h, fun _ _ _ _ h => h, fun _ _ _ _ => rfl⟩

theorem Fair.comp {R S : Nat → Nat} (hR : Fair m R) (hS : Fair m S) : Fair m fun r => R (S r) :=
  ⟨fun r h => hR.lt _ (hS.lt r h), fun r h r' h' e => hS.inj r h r' h' (hR.inj _ (hS.lt r h) _ (hS.lt r' h') e),
    fun σ hσ r h => by rw [hS.fair σ hσ r h, hR.fair σ hσ _ (hS.lt r h)]⟩

/-- a change of one row that comes in is a change of one row that goes out -/
theorem funnel_tangent {δ : Nat → Nat → ℝ} : ∀ (ds : List (Nat × Act)) (k q : Nat), ds ≠ [] → Funnel θ q ds → (∀ d ∈ ds, 0 < d.1) →
    (∀ d ∈ ds.dropLast, RowsAlike m d.1) → (∀ p ≥ q, ∀ c, δ p c = 0) → ∃ R, Fair m R ∧ ((∀ d ∈ ds.dropLast, m * d.1 ≤ 32) → ∀ r < m, R r = r) ∧ ∀ (D : Nat → Nat → ℝ) (v : ℝ), ∀ r < m,
    (∀ i < m, ∑ kk ∈ Finset.range k, shuffledMat m k D i kk = if i = r then v else 0) → ∀ i < m, ∀ j < lastWidth k ds,
    netTangent m θ δ k q ds (fun _ _ => 0) D i j = if i = R r ∧ j = 0 then v else 0 := by
  intro ds
  induction ds with
  | nil => exact fun _ _ h => absurd rfl h
  | cons d ds ih =>
    obtain ⟨n, f⟩ := d
    intro k q _ hf hd hS hδ
    obtain ⟨hw, hb, hf⟩ := hf
    have hn := hd _ List.mem_cons_self
    have step : ∀ (D : Nat → Nat → ℝ) (v : ℝ) (r : Nat), (∀ i < m, ∑ kk ∈ Finset.range k, shuffledMat m k D i kk = if i = r then v else 0) → ∀ i < m, ∀ j < n,
        f.slope (affine k (fun _ _ => 0) (fun i j => θ q (i * n + j)) (θ (q + 1)) i j) *
          ((∑ kk ∈ Finset.range k, (shuffledMat m k D i kk * θ q (kk * n + j) + 0 * shuffledMat k n (fun i j => δ q (i * n + j)) kk j)) + δ (q + 1) j) =
        if i = r ∧ j = 0 then v else 0 := by
      intro D v r hD i hi j hj
      rw [affine_zeros _ hb, f.slope_zero, one_mul, hδ (q + 1) (by omega), add_zero]
      have : ∀ kk, θ q (kk * n + j) = if j = 0 then 1 else 0 := by
        intro kk
        rw [hw, Nat.mul_comm, Nat.mul_add_mod, Nat.mod_eq_of_lt hj]
      simp only [this, zero_mul, add_zero]
      rw [← Finset.sum_mul, hD i hi]
      by_cases h1 : i = r <;> by_cases h2 : j = 0 <;> simp [h1, h2]
    rcases List.eq_nil_or_concat ds with rfl | hne
    · refine ⟨id, fair_id, fun _ _ _ => rfl, fun D v r _ hD i hi j hj => ?_⟩
      simp only [netTangent]
      exact step D v r hD i hi j hj
    · have hne : ds ≠ [] := by
        obtain ⟨_, _, rfl⟩ := hne
        simp
      obtain ⟨e, es, rfl⟩ := List.exists_cons_of_ne_nil hne
      rw [List.dropLast_cons₂] at hS
      obtain ⟨S, hS', hSid, hsum⟩ := fair_rows (hS _ List.mem_cons_self) hn
      obtain ⟨R, hR, hRid, H⟩ := ih n (q + 2) hne hf (fun d h => hd d (List.mem_cons_of_mem _ h)) (fun d h => hS d (List.mem_cons_of_mem _ h)) fun p hp => hδ p (by omega)
      refine ⟨fun r => R (S r), hR.comp hS', fun h r hr => ?_, fun D v r hr hD i hi j hj => ?_⟩
      · rw [List.dropLast_cons₂] at h
        change R (S r) = r
        rw [hSid (h _ List.mem_cons_self) r hr, hRid (fun d hd => h d (List.mem_cons_of_mem _ hd)) r hr]
      rw [netTangent]
      simp only [affine_zeros _ hb, f.fn_zero]
      rw [← H (fun i j => if i = r ∧ j = 0 then v else 0) v (S r) (hS'.lt r hr) (fun i hi => hsum r hr i hi v) i hi j hj]
      refine netTangent_congr m θ _ _ (e :: es) n (q + 2) _ _ _ (fun _ _ => rfl) (fun i hi j hj => ?_) i hi j hj
      have := step D v r hD i hi j hj
      rwa [affine_zeros _ hb] at this

/-- the last of the layers for which something does not hold -/
theorem last_not (P : Nat → Prop) : ∀ ds : List (Nat × Act), ¬ (∀ d ∈ ds.dropLast, P d.1) → ∃ pre n f rest, ds = pre ++ (n, f) :: rest ∧ rest ≠ [] ∧
    ¬ P n ∧ ∀ d ∈ rest.dropLast, P d.1 := by
  intro ds
  induction ds with
  | nil => intro h; exact absurd (by simp) h
  | cons d ds ih =>
    intro h
    cases ds with
    | nil => exact absurd (by simp) h
    | cons e es =>
      by_cases hr : ∀ d ∈ (e :: es).dropLast, P d.1
      · refine ⟨[], d.1, d.2, e :: es, rfl, by simp, fun hd => h ?_, hr⟩
        rw [List.dropLast_cons₂]
        intro d' hd'
        rcases List.mem_cons.1 hd' with rfl | h'
        · exact hd
        · exact hr d' h'
      · obtain ⟨pre, n, f, rest, e1, e2⟩ := ih hr
        exact ⟨d :: pre, n, f, rest, by rw [e1]; rfl, e2⟩

/-- parameters that feed unit 0 up to layer `l`, which has weights 0, and funnel what comes after it -/
def funnelParams (l : Nat) (ds : List (Nat × Act)) : Nat → Nat → ℝ := fun q c =>
  if q % 2 = 1 ∨ q = 2 * l then 0 else if q < 2 * l then (if c = 0 then 1 else 0) else if c % (ds[q / 2]?.getD (1, .relu)).1 = 0 then 1 else 0

theorem funnelParams_feed (ds : List (Nat × Act)) (l : Nat) : ∀ (pre : List (Nat × Act)) (s : Nat), s + pre.length ≤ l → Feed (funnelParams l ds) (2 * s) pre := by
  intro pre
  induction pre with
  | nil => intros; trivial
  | cons d pre ih =>
    intro s hs
    rw [List.length_cons] at hs
    refine ⟨fun c => ?_, fun j => ?_, ih (s + 1) (by omega)⟩
    · simp only [funnelParams]
      rw [if_neg (by omega), if_pos (by omega)]
    · simp only [funnelParams]
      rw [if_pos (by omega)]

theorem funnelParams_funnel (ds : List (Nat × Act)) (l : Nat) : ∀ (rest : List (Nat × Act)) (s : Nat), l < s → (∀ t, rest[t]? = ds[s + t]?) →
    Funnel (funnelParams l ds) (2 * s) rest := by
  intro rest
  induction rest with
  | nil => intros; trivial
  | cons d rest ih =>
    obtain ⟨n, f⟩ := d
    intro s hs hr
    have h0 := hr 0
    simp only [List.getElem?_cons_zero, Nat.add_zero] at h0
    refine ⟨fun c => ?_, fun j => ?_, ih (s + 1) (by omega) fun t => ?_⟩
    · simp only [funnelParams]
      rw [if_neg (by omega), if_neg (by omega), show 2 * s / 2 = s by omega, ← h0]
      rfl
    · simp only [funnelParams]
      rw [if_pos (by omega)]
    · have := hr (t + 1)
      rwa [List.getElem?_cons_succ, show s + (t + 1) = s + 1 + t by omega] at this

theorem pathFn_zero : ∀ ds : List (Nat × Act), pathFn ds 0 = 0
  | [] => rfl
  | (_, f) :: ds => by rw [pathFn, f.fn_zero, pathFn_zero ds]

/-- if only row `r` has an input that is not 0: what a step takes for a weight that reads it -/
theorem rows_slope {pre rest : List (Nat × Act)} (hf : Feed θ 0 pre) (hw : ∀ c, θ (2 * pre.length) c = 0) (hb : ∀ c, θ (2 * pre.length + 1) c = 0)
    (hF : Funnel θ (2 * pre.length + 2) rest) (hne : rest ≠ []) (hk : 0 < k) (hd : ∀ d ∈ pre ++ (n, f) :: rest, 0 < d.1)
    (hS : ∀ d ∈ rest.dropLast, RowsAlike m d.1) : ∃ R, Fair m R ∧ ((∀ d ∈ rest.dropLast, m * d.1 ≤ 32) → ∀ r < m, R r = r) ∧
    ∀ c < n, ∀ r < m, ∀ p < m * n, shuffle (m * n) p = r * n + c → ∀ (u : Nat → ℝ), (∀ i < m, i ≠ r → u i = 0) →
    ∀ y : Nat → Nat → ℝ, lossTangent m k (pre ++ (n, f) :: rest) (onPath u) y θ
      (unit (2 * pre.length) (shuffle (lastWidth k pre * n) c)) = (if 0 < y (R (p / n)) 0 then -1 else 1) * pathFn pre (u r) := by
  have hn : 0 < n := hd (n, f) (by simp)
  have hpre : ∀ d ∈ pre, 0 < d.1 := fun d h => hd d (by simp [h])
  have hrest : ∀ d ∈ rest, 0 < d.1 := fun d h => hd d (by simp [h])
  have hwid := lastWidth_pos pre _ hk hpre
  obtain ⟨R, hR, hRid, H⟩ := funnel_tangent (m := m) (δ := fun _ _ => 0) rest n (2 * pre.length + 2) hne hF hrest hS fun _ _ _ => rfl
  refine ⟨R, hR, hRid, fun c hc r hr p hp e u hu y => ?_⟩
  obtain ⟨t1, t2⟩ := feed_before (m := m) ((n, f) :: rest) (unit (2 * pre.length) (shuffle (lastWidth k pre * n) c)) pre k 0
    u hf hk hpre (fun p hp c => by
      simp only [unit]
      rw [if_neg (by omega)])
  rw [Nat.zero_add] at t1 t2
  have hz : ∀ i j, affine (lastWidth k pre) (onPath fun i => pathFn pre (u i)) (fun i j => θ (2 * pre.length) (i * n + j))
      (θ (2 * pre.length + 1)) i j = 0 := by
    intro i j
    rw [affine_sum, hb, add_zero]
    exact Finset.sum_eq_zero fun kk _ => by rw [hw, mul_zero]
  have hrow : p / n < m := (Nat.div_lt_iff_lt_mul hn).2 hp
  have hT : ∀ i < m, ∀ j < lastWidth n rest, netTangent m θ (unit (2 * pre.length) (shuffle (lastWidth k pre * n) c)) k 0 (pre ++ (n, f) :: rest)
      (onPath u) (fun _ _ => 0) i j = if i = R (p / n) ∧ j = 0 then pathFn pre (u r) else 0 := by
    intro i hi j hj
    rw [t1, ← H (fun i j => if i = r ∧ j = c then pathFn pre (u r) else 0) (pathFn pre (u r)) (p / n) hrow
      (fun i hi => shuffledMat_single hc hp e _ hi) i hi j hj]
    simp only [netTangent, hz, f.fn_zero, f.slope_zero, one_mul]
    refine netTangent_congr m θ _ _ rest n (2 * pre.length + 2) _ _ _ (fun p hp => ?_) (fun i hi j hj => ?_) i hi j hj
    · have := coords_ge rest _ _ p hp
      simp only [unit]
      rw [if_neg (by omega)]
    · rw [Finset.sum_eq_single 0]
      · simp only [onPath, shuffledMat, unit, Nat.div_add_mod', if_true, true_and, Nat.zero_mul, Nat.zero_add]
        rw [if_neg (show ¬ (2 * pre.length + 1 = 2 * pre.length ∧ j = shuffle (lastWidth k pre * n) c) by omega), add_zero, zero_mul, zero_add]
        have hlt : ∀ j < n, j < lastWidth k pre * n := by
          intro j hj
          nlinarith
        by_cases h1 : i = r <;> by_cases h2 : j = c
        · simp [h1, h2]
        · have hsc : shuffle (lastWidth k pre * n) j ≠ shuffle (lastWidth k pre * n) c := fun h => h2 (segPos_inj (hlt j hj) (hlt c hc) h)
          simp [h2, hsc]
        · simp [h1, hu i hi h1, pathFn_zero]
        · simp [h1, hu i hi h1, pathFn_zero]
      · intro kk _ hkk
        simp [onPath, hkk, shuffledMat]
      · simp [hwid]
  have hV : ∀ i j, netValue k (layerFns θ 0 (pre ++ (n, f) :: rest)) (onPath u) i j = 0 := by
    intro i j
    rw [t2]
    simp only [layerFns, netValue, hz, f.fn_zero]
    rw [funnel_value rest n _ hF]
  have hl : lastWidth k (pre ++ (n, f) :: rest) = lastWidth n rest := lastWidth_append _ pre k
  rw [lossTangent, hl, Finset.sum_eq_single_of_mem (R (p / n)) (Finset.mem_range.2 (hR.lt _ hrow)),
    Finset.sum_eq_single_of_mem 0 (Finset.mem_range.2 (lastWidth_pos rest _ hn hrest))]
  · rw [hT _ (hR.lt _ hrow) 0 (lastWidth_pos rest _ hn hrest), hV, if_pos (⟨rfl, rfl⟩ : R (p / n) = R (p / n) ∧ 0 = 0)]
  · intro j hj hj0
    rw [hT _ (hR.lt _ hrow) j (Finset.mem_range.1 hj), if_neg (show ¬ (R (p / n) = R (p / n) ∧ j = 0) by simp [hj0]), mul_zero]
  · intro i hi hi0
    refine Finset.sum_eq_zero fun j hj => ?_
    rw [hT i (Finset.mem_range.1 hi) j (Finset.mem_range.1 hj), if_neg (show ¬ (i = R (p / n) ∧ j = 0) by simp [hi0]), mul_zero]

/-- a row is mixed with others by the shuffle unless it is the only one or all fits into one segment -/
theorem shuffle_leaves_row (hn : 0 < n) (hm : m ≠ 1) (h : 32 < m * n) : ∃ p < m * n, p / n ≠ shuffle (m * n) p / n := by
  have hm2 : 2 ≤ m := by
    rcases m with _ | _ | m
    · simp at h
    · exact absurd rfl hm
    · omega
  obtain ⟨l, rfl⟩ : ∃ l, m = l + 1 := ⟨m - 1, by omega⟩
  rw [Nat.add_mul, Nat.one_mul] at h ⊢
  by_cases hl : 32 ≤ l * n
  · refine ⟨0, by omega, ?_⟩
    have : shuffle (l * n + n) 0 = l * n + n - 32 := by
      generalize l * n = z at *
      unfold shuffle
      omega
    rw [this, Nat.zero_div]
    have := (Nat.le_div_iff_mul_le hn).2 (show 1 * n ≤ l * n + n - 32 by omega)
    omega
  · refine ⟨32, by omega, ?_⟩
    have h1 : n ≤ l * n := Nat.le_mul_of_pos_left _ (by omega)
    have : shuffle (l * n + n) 32 = 0 := by
      generalize l * n = z at *
      unfold shuffle
      omega
    rw [this, Nat.zero_div]
    have := (Nat.le_div_iff_mul_le hn).2 (show 1 * n ≤ 32 by omega)
    omega

end RL
