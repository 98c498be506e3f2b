import Verif.Lemmas.Rows
import Verif.Lemmas.Stable
import Verif.Props.Batch

/-!
# Exactly for which networks the order of the rows of a batch does not matter: C80
-/

namespace RL

open Spec

/-- C80 for more networks than in `C80_partial`: with `m` rows each layer but the last has up to `32 / m` units, or there is one row, or
there are two rows and each layer but the last has up to 32 units or a multiple of 32 units. Missing: all others; for these it is false
(`C80_exact`). -/
theorem C80_wide_partial (h₁ h₂ : Heap ℝ) (mlp₁ mlp₂ : Mlp ℝ) (x₁ y₁ x₂ y₂ m k : Nat) (ds : List (Nat × Act)) (a b θ : Nat → Nat → ℝ) (lr : ℝ) (N : Nat)
    (σ : Equiv.Perm Nat) (hσ : ∀ i < m, σ i < m) (ht₁ : Training h₁ mlp₁ x₁ y₁ m k ds a b θ)
    (ht₂ : Training h₂ mlp₂ x₂ y₂ m k ds (fun i => a (σ i)) (fun i => b (σ i)) θ) (hS : ∀ d ∈ ds.dropLast, RowsAlike m d.1) :
    ∃ h₁' mlp₁' h₂' mlp₂' θ', train mlp₁ h₁ x₁ y₁ lr N = .ok (h₁', mlp₁') ∧ train mlp₂ h₂ x₂ y₂ lr N = .ok (h₂', mlp₂') ∧
      NetIs h₁' mlp₁' k ds θ' ∧ NetIs h₂' mlp₂' k ds θ' := by
  obtain ⟨h₁', mlp₁', e₁, t₁⟩ := C50_actual N h₁ mlp₁ x₁ y₁ m k ds a b θ lr ht₁
  obtain ⟨h₂', mlp₂', e₂, t₂⟩ := C50_actual N h₂ mlp₂ x₂ y₂ m k ds _ _ θ lr ht₂
  refine ⟨h₁', mlp₁', h₂', mlp₂', _, e₁, e₂, t₁.net, ?_⟩
  have := t₂.net
  rwa [show shuffledDescend lr m k ds (fun i => a (σ i)) (fun i => b (σ i)) = shuffledDescend lr m k ds a b from
    funext fun θ => shuffledDescend_rows hS hσ lr a b θ] at this

/-- C80, exactly for which networks and numbers of rows, already for one step. -/
theorem C80_exact (m k : Nat) (ds : List (Nat × Act)) (hm : 0 < m) (hk : 0 < k) (hd : ∀ d ∈ ds, 0 < d.1) :
    (∀ (h₁ h₂ : Heap ℝ) (mlp₁ mlp₂ : Mlp ℝ) (x₁ y₁ x₂ y₂ : Nat) (a b θ : Nat → Nat → ℝ) (lr : ℝ) (σ : Equiv.Perm Nat), (∀ i < m, σ i < m) →
      Training h₁ mlp₁ x₁ y₁ m k ds a b θ → Training h₂ mlp₂ x₂ y₂ m k ds (fun i => a (σ i)) (fun i => b (σ i)) θ →
      ∃ h₁' mlp₁' h₂' mlp₂' θ', trainStep mlp₁ h₁ x₁ y₁ lr = .ok (h₁', mlp₁') ∧ trainStep mlp₂ h₂ x₂ y₂ lr = .ok (h₂', mlp₂') ∧
        NetIs h₁' mlp₁' k ds θ' ∧ NetIs h₂' mlp₂' k ds θ') ↔
    ∀ d ∈ ds.dropLast, m * d.1 ≤ 32 ∨ m = 1 ∨ m = 2 ∧ (d.1 ≤ 32 ∨ 32 ∣ d.1) := by
  constructor
  · intro H
    by_contra hS
    obtain ⟨pre, n, f, rest, rfl, hne, hbad, hgood⟩ := last_not (RowsAlike m) ds hS
    have hn : 0 < n := hd (n, f) (by simp)
    obtain ⟨s, hs, t, ht, p, hp, p', hp', e, hne0⟩ := shuffle_moveRow_ne hm hn hbad
    have hσ : ∀ r < m, Equiv.swap s t r < m := by
      intro r hr
      rw [Equiv.swap_apply_def]
      split
      · exact ht
      · split
        · exact hs
        · exact hr
    have hpm : p < m * n := by nlinarith
    have hlt := shuffle_lt hpm
    set r := shuffle (m * n) p / n with hr
    set c := shuffle (m * n) p % n with hc
    have hrm : r < m := (Nat.div_lt_iff_lt_mul hn).2 hlt
    have hcn : c < n := Nat.mod_lt _ hn
    let θ := funnelParams pre.length (pre ++ (n, f) :: rest)
    obtain ⟨R, hR, _, hslope⟩ := rows_slope (m := m) (n := n) (f := f) (k := k) (θ := θ) (pre := pre) (rest := rest)
      (by simpa using funnelParams_feed (pre ++ (n, f) :: rest) pre.length pre 0 (by omega))
      (fun c => by simp [θ, funnelParams]) (fun c => by
        simp only [θ, funnelParams]
        rw [if_pos (by omega)])
      (by
        have := funnelParams_funnel (pre ++ (n, f) :: rest) pre.length rest (pre.length + 1) (by omega) fun t => by
          rw [List.getElem?_append_right (by omega), show pre.length + 1 + t - pre.length = t + 1 by omega, List.getElem?_cons_succ]
        rwa [show 2 * (pre.length + 1) = 2 * pre.length + 2 by ring] at this)
      hne hk hd hgood
    have hrow' : p' / n < m := (Nat.div_lt_iff_lt_mul hn).2 hp'
    let y : Nat → Nat → ℝ := fun i _ => if i = R 0 then 1 else -1
    let x : Nat → Nat → ℝ := onPath fun i => if i = r then 1 else 0
    have hx : (fun i => x (Equiv.swap s t i)) = onPath fun i => if i = Equiv.swap s t r then 1 else 0 := by
      funext i j
      simp only [x, onPath]
      congr 1
      simp only [Equiv.swap_apply_eq_iff]
    have t₁ := training_exists m k (pre ++ (n, f) :: rest) x y θ hm hk hd
    have t₂ := training_exists m k (pre ++ (n, f) :: rest) (fun i => x (Equiv.swap s t i)) (fun i => y (Equiv.swap s t i)) θ hm hk hd
    obtain ⟨h₁', mlp₁', h₂', mlp₂', θ', e₁, e₂, n₁, n₂⟩ := H _ _ _ _ _ _ _ _ _ _ _ 1 (Equiv.swap s t) hσ t₁ t₂
    obtain ⟨_, _, f₁, u₁⟩ := C50_step_actual _ _ _ _ _ _ _ _ _ _ 1 t₁
    obtain ⟨_, _, f₂, u₂⟩ := C50_step_actual _ _ _ _ _ _ _ _ _ _ 1 t₂
    rw [e₁] at f₁
    rw [e₂] at f₂
    cases f₁
    cases f₂
    have hwid := lastWidth_pos pre k hk fun d h => hd d (by simp [h])
    have hmem : (2 * pre.length, shuffle (lastWidth k pre * n) c) ∈ coords k 0 (pre ++ (n, f) :: rest) := by
      refine mem_coords_at pre ((n, f) :: rest) k 0 _ ?_
      rw [Nat.zero_add]
      have : c < lastWidth k pre * n := by nlinarith
      simp [coords, shuffle_lt this]
    have c₁ := n₁.unique u₁.net hmem
    have c₂ := n₂.unique u₂.net hmem
    rw [c₁] at c₂
    change θ _ _ - 1 * lossTangent m k _ x y θ (unit _ _) = θ _ _ - 1 * lossTangent m k _ (fun i => x (Equiv.swap s t i)) (fun i => y (Equiv.swap s t i)) θ (unit _ _) at c₂
    rw [hx, hslope c hcn r hrm p hpm (by rw [hr, hc, Nat.div_add_mod']) _ (fun i _ h => if_neg h) y,
      hslope c hcn _ (hσ r hrm) p' hp' (by rw [← e]; rfl) _ (fun i _ h => if_neg h), if_pos rfl, if_pos rfl] at c₂
    have h0 : p / n = 0 := Nat.div_eq_of_lt hp
    have hside : Equiv.swap s t (R (p' / n)) ≠ R 0 := by
      rw [← hR.fair _ hσ _ hrow']
      exact fun h => hne0 (hR.inj _ (hσ _ hrow') 0 hm h)
    have hy : y (R 0) 0 = 1 := by simp [y]
    have hy' : y (Equiv.swap s t (R (p' / n))) 0 = -1 := by simp [y, hside]
    simp only [h0, hy, hy'] at c₂
    have hv := pathFn_pos pre one_pos
    norm_num at c₂
    linarith
  · intro hS h₁ h₂ mlp₁ mlp₂ x₁ y₁ x₂ y₂ a b θ lr σ hσ ht₁ ht₂
    obtain ⟨h₁', mlp₁', h₂', mlp₂', θ', e₁, e₂, H⟩ := C80_wide_partial h₁ h₂ mlp₁ mlp₂ x₁ y₁ x₂ y₂ m k ds a b θ lr 1 σ hσ ht₁ ht₂ hS
    refine ⟨h₁', mlp₁', h₂', mlp₂', θ', ?_, ?_, H⟩
    · simp only [train, R.bind_eq_ok] at e₁
      obtain ⟨⟨h1, mlp1⟩, e1, e2⟩ := e₁
      rw [e1]
      exact e2
    · simp only [train, R.bind_eq_ok] at e₂
      obtain ⟨⟨h1, mlp1⟩, e1, e2⟩ := e₂
      rw [e1]
      exact e2

/-- C80, test: two rows and hidden layers of 64 and 20 units; exchanging the rows, for any data and parameters. -/
example (k : Nat) (a b θ : Nat → Nat → ℝ) (lr : ℝ) (N : Nat) (hk : 0 < k) : ∃ h₁ mlp₁ h₂ mlp₂ h₁' mlp₁' h₂' mlp₂' θ',
    Training h₁ mlp₁ 0 1 2 k [(64, .relu), (20, .tanh), (1, .identity)] a b θ ∧
    Training h₂ mlp₂ 0 1 2 k [(64, .relu), (20, .tanh), (1, .identity)] (fun i => a (Equiv.swap 0 1 i)) (fun i => b (Equiv.swap 0 1 i)) θ ∧
    train mlp₁ h₁ 0 1 lr N = .ok (h₁', mlp₁') ∧ train mlp₂ h₂ 0 1 lr N = .ok (h₂', mlp₂') ∧
    NetIs h₁' mlp₁' k [(64, .relu), (20, .tanh), (1, .identity)] θ' ∧ NetIs h₂' mlp₂' k [(64, .relu), (20, .tanh), (1, .identity)] θ' := by
  have t₁ := training_exists 2 k [(64, .relu), (20, .tanh), (1, .identity)] a b θ (by omega) hk (by simp)
  have t₂ := training_exists 2 k [(64, .relu), (20, .tanh), (1, .identity)] (fun i => a (Equiv.swap 0 1 i)) (fun i => b (Equiv.swap 0 1 i)) θ (by omega) hk (by simp)
  obtain ⟨h₁', mlp₁', h₂', mlp₂', θ', H⟩ := C80_wide_partial _ _ _ _ _ _ _ _ 2 k _ a b θ lr N (Equiv.swap 0 1) (by decide) t₁ t₂ (by
    simp [RowsAlike])
  exact ⟨_, _, _, _, h₁', mlp₁', h₂', mlp₂', θ', t₁, t₂, H⟩

/-- C81, exactly for which networks and numbers of rows. -/
theorem C81_exact (m k : Nat) (ds : List (Nat × Act)) (hm : 0 < m) (hk : 0 < k) (hd : ∀ d ∈ ds, 0 < d.1) :
    (∀ (h : Heap ℝ) (mlp : Mlp ℝ) (x y : Nat) (a b θ : Nat → Nat → ℝ) (lr : ℝ) (H : Nat → Heap ℝ) (M : Nat → Mlp ℝ) (X Y : Nat → Nat),
      Training h mlp x y m k ds a b θ → (∀ i < m, Training (H i) (M i) (X i) (Y i) 1 k ds (fun _ => a i) (fun _ => b i) θ) →
      ∃ (h' : Heap ℝ) (mlp' : Mlp ℝ) (θ' : Nat → Nat → ℝ) (H' : Nat → Heap ℝ) (M' : Nat → Mlp ℝ) (Θ : Nat → Nat → Nat → ℝ),
        trainStep mlp h x y lr = .ok (h', mlp') ∧ NetIs h' mlp' k ds θ' ∧
        (∀ i < m, trainStep (M i) (H i) (X i) (Y i) lr = .ok (H' i, M' i) ∧ NetIs (H' i) (M' i) k ds (Θ i)) ∧
        ∀ p ∈ coords k 0 ds, θ' p.1 p.2 - θ p.1 p.2 = ∑ i ∈ Finset.range m, (Θ i p.1 p.2 - θ p.1 p.2)) ↔
    m = 1 ∨ ∀ d ∈ ds.dropLast, m * d.1 ≤ 32 := by
  constructor
  · intro H
    by_contra hS
    rw [not_or] at hS
    obtain ⟨pre, n, f, rest, rfl, hne, hbad, hgood⟩ := last_not (fun n => m * n ≤ 32) ds hS.2
    have hn : 0 < n := hd (n, f) (by simp)
    obtain ⟨p, hpm, hne0⟩ := shuffle_leaves_row hn hS.1 (by omega)
    have hlt := shuffle_lt hpm
    set r := shuffle (m * n) p / n with hr
    set c := shuffle (m * n) p % n with hc
    have hrm : r < m := (Nat.div_lt_iff_lt_mul hn).2 hlt
    have hcn : c < n := Nat.mod_lt _ hn
    let θ := funnelParams pre.length (pre ++ (n, f) :: rest)
    have slope : ∀ l, (∀ d ∈ rest.dropLast, l = 1 ∨ l * d.1 ≤ 32) → _ := fun l hl => rows_slope (m := l) (n := n) (f := f) (k := k) (θ := θ) (pre := pre) (rest := rest)
      (by simpa using funnelParams_feed (pre ++ (n, f) :: rest) pre.length pre 0 (by omega))
      (fun c => by simp [θ, funnelParams]) (fun c => by
        simp only [θ, funnelParams]
        rw [if_pos (by omega)])
      (by
        have := funnelParams_funnel (pre ++ (n, f) :: rest) pre.length rest (pre.length + 1) (by omega) fun t => by
          rw [List.getElem?_append_right (by omega), show pre.length + 1 + t - pre.length = t + 1 by omega, List.getElem?_cons_succ]
        rwa [show 2 * (pre.length + 1) = 2 * pre.length + 2 by ring] at this)
      hne hk hd fun d h => (hl d h).elim (fun h => Or.inr (Or.inl h)) Or.inl
    obtain ⟨R, hR, hRid, hslope⟩ := slope m fun d h => Or.inr (hgood d h)
    obtain ⟨R₁, hR₁, _, hslope₁⟩ := slope 1 fun _ _ => Or.inl rfl
    obtain ⟨p₁, hp₁, e₁⟩ := shuffle_surj (show 0 * n + c < 1 * n by omega)
    let y : Nat → Nat → ℝ := fun i _ => if i = r then 1 else -1
    let x : Nat → Nat → ℝ := onPath fun i => if i = r then 1 else 0
    have hx : ∀ i, (fun _ => x i) = onPath fun _ => if i = r then 1 else 0 := fun i => rfl
    have t := training_exists m k (pre ++ (n, f) :: rest) x y θ hm hk hd
    have t₁ := fun i => training_exists 1 k (pre ++ (n, f) :: rest) (fun _ => x i) (fun _ => y i) θ (by omega) hk hd
    obtain ⟨h', mlp', θ', H', M', Θ, e, net, hrow, hsum⟩ := H _ _ _ _ _ _ _ 1 _ _ _ _ t fun i _ => t₁ i
    have hwid := lastWidth_pos pre k hk fun d h => hd d (by simp [h])
    have hmem : (2 * pre.length, shuffle (lastWidth k pre * n) c) ∈ coords k 0 (pre ++ (n, f) :: rest) := by
      refine mem_coords_at pre ((n, f) :: rest) k 0 _ ?_
      rw [Nat.zero_add]
      have : c < lastWidth k pre * n := by nlinarith
      simp [coords, shuffle_lt this]
    obtain ⟨_, _, f₀, u⟩ := C50_step_actual _ _ _ _ _ _ _ _ _ _ 1 t
    rw [e] at f₀
    cases f₀
    have c₀ := net.unique u.net hmem
    have hΘ : ∀ i < m, Θ i (2 * pre.length) (shuffle (lastWidth k pre * n) c) - θ (2 * pre.length) (shuffle (lastWidth k pre * n) c) =
        if i = r then pathFn pre 1 else 0 := by
      intro i hi
      obtain ⟨_, _, f₀, u⟩ := C50_step_actual _ _ _ _ _ _ _ _ _ _ 1 (t₁ i)
      rw [(hrow i hi).1] at f₀
      cases f₀
      rw [(hrow i hi).2.unique u.net hmem]
      change θ _ _ - 1 * lossTangent 1 k _ (fun _ => x i) (fun _ => y i) θ (unit _ _) - _ = _
      rw [hx, hslope₁ c hcn 0 (by omega) p₁ hp₁ e₁ _ (by omega)]
      by_cases h : i = r
      · simp only [y, h]
        norm_num
      · simp only [h, if_false, pathFn_zero]
        ring
    have hs := hsum _ hmem
    rw [Finset.sum_congr rfl fun i hi => hΘ i (Finset.mem_range.1 hi), Finset.sum_ite_eq' , if_pos (Finset.mem_range.2 hrm), c₀] at hs
    change θ _ _ - 1 * lossTangent m k _ x y θ (unit _ _) - _ = _ at hs
    rw [hslope c hcn r hrm p hpm (by rw [hr, hc, Nat.div_add_mod']) _ (fun i _ h => if_neg h) y, if_pos rfl,
      hRid hgood _ ((Nat.div_lt_iff_lt_mul hn).2 hpm)] at hs
    have hy : y (p / n) 0 = -1 := by simp [y, hne0]
    simp only [hy] at hs
    have hv := pathFn_pos pre one_pos
    norm_num at hs
    linarith
  · rintro (rfl | hS) h mlp x y a b θ lr H M X Y ht hT
    · obtain ⟨h', mlp', e, t⟩ := C50_step_actual h mlp x y 1 k ds (fun _ => a 0) (fun _ => b 0) θ lr (ht.congr_data (by
        rintro i hi j _
        rw [show i = 0 by omega]) (by
        rintro i hi j _
        rw [show i = 0 by omega]))
      obtain ⟨h₁, mlp₁, e₁, t₁⟩ := C50_step_actual _ _ _ _ _ _ _ _ _ _ lr (hT 0 (by omega))
      refine ⟨h', mlp', _, fun _ => h₁, fun _ => mlp₁, fun _ => shuffledDescend lr 1 k ds (fun _ => a 0) (fun _ => b 0) θ, e, t.net, fun i hi => ?_, fun p hp => ?_⟩
      · obtain rfl : i = 0 := by omega
        exact ⟨e₁, t₁.net⟩
      · rw [Finset.sum_range_one]
    · exact C81_partial h mlp x y m k ds a b θ lr H M X Y ht hT hS

end RL
