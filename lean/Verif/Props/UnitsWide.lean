import Verif.Lemmas.UnitsWide
import Verif.Props.Units

/-!
# Exactly for which layers the order of the units does not matter: C82
-/

namespace RL

open Spec

/-- C82 for more networks than in `C82_partial`: the number `n` of units divides 32, or there are up to `32 / n` rows and units before them;
and the next weights are at most 32, or of one unit, or of two units and a multiple of 32 or up to 32 units. All other layers may have any
size. Missing: all others; for these it is false (`C82_exact`). -/
theorem C82_wide_partial (h₁ h₂ : Heap ℝ) (mlp₁ mlp₂ : Mlp ℝ) (x₁ y₁ x₂ y₂ m k n n' : Nat) (f f' : Act) (pre post : List (Nat × Act))
    (a b θ : Nat → Nat → ℝ) (lr : ℝ) (N : Nat) (σ : Equiv.Perm Nat) (hσ : ∀ j < n, σ j < n)
    (ht₁ : Training h₁ mlp₁ x₁ y₁ m k (pre ++ (n, f) :: (n', f') :: post) a b θ)
    (ht₂ : Training h₂ mlp₂ x₂ y₂ m k (pre ++ (n, f) :: (n', f') :: post) a b (renameUnits (2 * pre.length) n n' σ θ))
    (hU : UnitsAlike m (lastWidth k pre) n n') :
    ∃ h₁' mlp₁' h₂' mlp₂' θ', train mlp₁ h₁ x₁ y₁ lr N = .ok (h₁', mlp₁') ∧ train mlp₂ h₂ x₂ y₂ lr N = .ok (h₂', mlp₂') ∧
      NetIs h₁' mlp₁' k (pre ++ (n, f) :: (n', f') :: post) θ' ∧
      NetIs h₂' mlp₂' k (pre ++ (n, f) :: (n', f') :: post) (renameUnits (2 * pre.length) n n' σ θ') := by
  obtain ⟨h₁', mlp₁', e₁, t₁⟩ := C50_actual N h₁ mlp₁ x₁ y₁ m k _ a b θ lr ht₁
  obtain ⟨h₂', mlp₂', e₂, t₂⟩ := C50_actual N h₂ mlp₂ x₂ y₂ m k _ a b _ lr ht₂
  refine ⟨h₁', mlp₁', h₂', mlp₂', _, e₁, e₂, t₁.net, ?_⟩
  have hw := training_widths ht₁
  have hcomm : ∀ (N : Nat) (θ : Nat → Nat → ℝ), (shuffledDescend lr m k (pre ++ (n, f) :: (n', f') :: post) a b)^[N]
      (renameUnits (2 * pre.length) n n' σ θ) = renameUnits (2 * pre.length) n n' σ ((shuffledDescend lr m k (pre ++ (n, f) :: (n', f') :: post) a b)^[N] θ) := by
    intro N
    induction N with
    | zero => intro θ; rfl
    | succ N ih =>
      intro θ
      rw [Function.iterate_succ_apply, Function.iterate_succ_apply,
        shuffledDescend_rename_wide hσ pre rfl (hw (n, f) (by simp)) (hw (n', f') (by simp)) hU, ih]
  rw [← hcomm]
  exact t₂.net

/-- C82: units that start with the same parameters keep the same parameters, in all of these networks. -/
theorem C82_same_wide_partial (h : Heap ℝ) (mlp : Mlp ℝ) (x y m k n n' : Nat) (f f' : Act) (pre post : List (Nat × Act)) (a b θ : Nat → Nat → ℝ) (lr : ℝ)
    (N j j' : Nat) (ht : Training h mlp x y m k (pre ++ (n, f) :: (n', f') :: post) a b θ) (hj : j < n) (hj' : j' < n)
    (hsame : SameUnits (lastWidth k pre) (2 * pre.length) n n' θ j j') (hU : UnitsAlike m (lastWidth k pre) n n') :
    ∃ h' mlp' θ', train mlp h x y lr N = .ok (h', mlp') ∧ NetIs h' mlp' k (pre ++ (n, f) :: (n', f') :: post) θ' ∧
      SameUnits (lastWidth k pre) (2 * pre.length) n n' θ' j j' := by
  have hσ : ∀ r < n, Equiv.swap j j' r < n := by
    intro r hr
    rw [Equiv.swap_apply_def]
    split
    · exact hj'
    · split
      · exact hj
      · exact hr
  obtain ⟨h', mlp', h'', mlp'', θ', e1, e2, n1, n2⟩ := C82_wide_partial h h mlp mlp x y x y m k n n' f f' pre post a b θ lr N (Equiv.swap j j') hσ ht
    (ht.congr (rename_same hsame)) hU
  rw [e1] at e2
  cases e2
  exact ⟨h', mlp', θ', e1, n1, same_of_rename hj fun p hp => n1.unique n2 hp⟩

/-- C82, exactly for which layers, already for one step. -/
theorem C82_exact (m k n n' : Nat) (f f' : Act) (pre post : List (Nat × Act)) (hm : 0 < m) (hk : 0 < k)
    (hd : ∀ d ∈ pre ++ (n, f) :: (n', f') :: post, 0 < d.1) :
    (∀ (h₁ h₂ : Heap ℝ) (mlp₁ mlp₂ : Mlp ℝ) (x₁ y₁ x₂ y₂ : Nat) (a b θ : Nat → Nat → ℝ) (lr : ℝ) (σ : Equiv.Perm Nat), (∀ j < n, σ j < n) →
      Training h₁ mlp₁ x₁ y₁ m k (pre ++ (n, f) :: (n', f') :: post) a b θ →
      Training h₂ mlp₂ x₂ y₂ m k (pre ++ (n, f) :: (n', f') :: post) a b (renameUnits (2 * pre.length) n n' σ θ) →
      ∃ h₁' mlp₁' h₂' mlp₂' θ', trainStep mlp₁ h₁ x₁ y₁ lr = .ok (h₁', mlp₁') ∧ trainStep mlp₂ h₂ x₂ y₂ lr = .ok (h₂', mlp₂') ∧
        NetIs h₁' mlp₁' k (pre ++ (n, f) :: (n', f') :: post) θ' ∧
        NetIs h₂' mlp₂' k (pre ++ (n, f) :: (n', f') :: post) (renameUnits (2 * pre.length) n n' σ θ')) ↔
    (n ∣ 32 ∨ lastWidth k pre * n ≤ 32 ∧ m * n ≤ 32) ∧ (n * n' ≤ 32 ∨ n = 1 ∨ n = 2 ∧ (n' ≤ 32 ∨ 32 ∣ n')) := by
  have hn : 0 < n := hd (n, f) (by simp)
  have hn' : 0 < n' := hd (n', f') (by simp)
  have hK := lastWidth_pos pre k hk fun d h => hd d (by simp [h])
  constructor
  · intro H
    have swap_lt : ∀ {s t : Nat}, s < n → t < n → ∀ r < n, Equiv.swap s t r < n := by
      intro s t hs ht r hr
      rw [Equiv.swap_apply_def]
      split
      · exact ht
      · split
        · exact hs
        · exact hr
    have comm : ∀ (a b θ : Nat → Nat → ℝ) (σ : Equiv.Perm Nat), (∀ j < n, σ j < n) → ∃ θ' : Nat → Nat → ℝ,
        (∀ p ∈ coords k 0 (pre ++ (n, f) :: (n', f') :: post), θ' p.1 p.2 = θ p.1 p.2 - 1 * lossTangent m k (pre ++ (n, f) :: (n', f') :: post) a b θ (unit p.1 p.2)) ∧
        ∀ p ∈ coords k 0 (pre ++ (n, f) :: (n', f') :: post), renameUnits (2 * pre.length) n n' σ θ' p.1 p.2 = renameUnits (2 * pre.length) n n' σ θ p.1 p.2 -
          1 * lossTangent m k (pre ++ (n, f) :: (n', f') :: post) a b (renameUnits (2 * pre.length) n n' σ θ) (unit p.1 p.2) := by
      intro a b θ σ hσ
      have t₁ := training_exists m k (pre ++ (n, f) :: (n', f') :: post) a b θ hm hk hd
      have t₂ := training_exists m k (pre ++ (n, f) :: (n', f') :: post) a b (renameUnits (2 * pre.length) n n' σ θ) hm hk hd
      obtain ⟨h₁', mlp₁', h₂', mlp₂', θ', e₁, e₂, n₁, n₂⟩ := H _ _ _ _ _ _ _ _ _ _ _ 1 σ hσ t₁ t₂
      obtain ⟨_, _, f₁, u₁⟩ := C50_step_actual _ _ _ _ _ _ _ _ _ _ 1 t₁
      obtain ⟨_, _, f₂, u₂⟩ := C50_step_actual _ _ _ _ _ _ _ _ _ _ 1 t₂
      rw [e₁] at f₁
      rw [e₂] at f₂
      cases f₁
      cases f₂
      exact ⟨θ', fun p hp => n₁.unique u₁.net hp, fun p hp => n₂.unique u₂.net hp⟩
    have at_ : ∀ p ∈ coords (lastWidth k pre) (2 * pre.length) ((n, f) :: (n', f') :: post), p ∈ coords k 0 (pre ++ (n, f) :: (n', f') :: post) :=
      fun p hp => mem_coords_at pre _ k 0 p (by rwa [Nat.zero_add])
    have hrow : RowsAlike n n' := by
      by_contra hS
      obtain ⟨s, hs, t, ht, p, hp, p', hp', e, hne⟩ := shuffle_moveRow_ne hn hn' hS
      have hσ := swap_lt hs ht
      obtain ⟨θ, ρ, γ, hρ, hγ, hF, hw, hb, hv, hpos⟩ := probe_next (m := m) (k := k) (f := f) (f' := f') (post := post) hm hk hd hp
      have hp0 : p < n * n' := by nlinarith
      have hlt := shuffle_lt hp0
      have hlt' := shuffle_lt hp'
      have zero : ∀ y : Nat → Nat → ℝ, lossTangent m k (pre ++ (n, f) :: (n', f') :: post) (onPath fun _ => 1) y θ (unit (2 * pre.length + 2) (shuffle (n * n') p)) = 0 := by
        intro y
        obtain ⟨θ', h1, h2⟩ := comm (onPath fun _ => 1) y θ (Equiv.swap s t) hσ
        have h1 := h1 (2 * pre.length + 2, shuffle (n * n') p) (at_ _ (mem_rest (by simp [coords, hlt])))
        have h2 := h2 (2 * pre.length + 2, shuffle (n * n') p') (at_ _ (mem_rest (by simp [coords, hlt'])))
        dsimp only at h1 h2
        rw [renamed_next hσ hk hd hF hw hb hp' hne] at h2
        have hinv : moveRow n' (Equiv.swap s t) (shuffle (n * n') p') = shuffle (n * n') p := by
          rw [← e]
          conv_lhs => arg 3; unfold moveRow
          rw [moveRow_at _ (Nat.mod_lt _ hn'), Equiv.swap_apply_self, Nat.div_add_mod']
        have hren : ∀ θ : Nat → Nat → ℝ, renameUnits (2 * pre.length) n n' (Equiv.swap s t) θ (2 * pre.length + 2) (shuffle (n * n') p') =
            θ (2 * pre.length + 2) (shuffle (n * n') p) := by
          intro θ
          rw [renameUnits, if_neg (by omega), if_neg (by omega), if_pos rfl]
          exact congrArg _ hinv
        rw [hren, hren] at h2
        linarith
      have := lossTangent_flip (fun i _ j _ => hv i j) hρ hγ (unit (2 * pre.length + 2) (shuffle (n * n') p))
      rw [zero, zero] at this
      linarith
    refine ⟨?_, hrow⟩
    by_contra hcol
    rw [not_or, not_and_or] at hcol
    obtain ⟨h32, hcol⟩ := hcol
    have hn3 : 3 ≤ n := by
      by_contra h
      rcases (show n = 1 ∨ n = 2 by omega) with rfl | rfl <;> exact h32 (by decide)
    have col_ne : ∀ l, 32 < l * n → shuffle (l * n) 0 % n ≠ 0 := by
      intro l hl h0
      have : shuffle (l * n) 0 = l * n - 32 := by
        generalize l * n = z at *
        unfold shuffle
        omega
      rw [this] at h0
      exact h32 ((Nat.dvd_sub_iff_right hl.le (Nat.dvd_mul_left n l)).1 (Nat.dvd_of_mod_eq_zero h0))
    obtain ⟨θ, ρ, γ, hρ, hγ, hw, hb, hw', hv, hT⟩ := probe (m := m) (k := k) (f := f) (f' := f') (post := post) hm hk hd
    have hren : ∀ s t, s ≠ 0 → t ≠ 0 → renameUnits (2 * pre.length) n n' (Equiv.swap s t) θ = θ := by
      intro s t hs ht
      funext q c
      rw [renameUnits]
      split
      · next h => rw [h, hw, hw]
      · split
        · next h => rw [h, hb, hb]
        · split
          · next h =>
            rw [h, hw', hw']
            congr 1
            have hs0 : Equiv.swap s t 0 = 0 := Equiv.swap_apply_of_ne_of_ne (Ne.symm hs) (Ne.symm ht)
            have hdm := Nat.div_add_mod' c n'
            refine propext ⟨fun h => ?_, fun h => ?_⟩
            · have h1 : Equiv.swap s t (c / n') = 0 := by
                rcases Nat.eq_zero_or_pos (Equiv.swap s t (c / n')) with h1 | h1
                · exact h1
                · have := Nat.mul_pos h1 hn'
                  omega
              have h2 : c / n' = 0 := (Equiv.swap s t).injective (by rw [h1, hs0])
              rw [h2] at hdm
              omega
            · rw [h, Nat.zero_div, hs0, Nat.zero_mul, Nat.zero_mod]
          · rfl
    have flip : ∀ δ : Nat → Nat → ℝ, _ := fun δ => lossTangent_flip (fun i _ j _ => hv i j) hρ hγ δ
    have hother : ∀ e, ∃ t < n, t ≠ 0 ∧ t ≠ e := by
      intro e
      by_cases h : e = 1
      · exact ⟨2, by omega, by omega, by omega⟩
      · exact ⟨1, by omega, by omega, fun h' => h h'.symm⟩
    by_cases hmn : m * n ≤ 32
    · have hkn : 32 < lastWidth k pre * n := by
        rcases hcol with h | h
        · omega
        · exact absurd hmn h
      have he := col_ne _ hkn
      set K := lastWidth k pre with hKdef
      set e := shuffle (K * n) 0 % n with hedef
      obtain ⟨t, ht, ht0, hte⟩ := hother e
      have hen : e < n := Nat.mod_lt _ hn
      have hlt := shuffle_lt (show 0 < K * n by omega)
      set r := shuffle (K * n) 0 / n with hr
      have hrK : r < K := (Nat.div_lt_iff_lt_mul hn).2 hlt
      have h0 : shuffle (m * n) 0 % n = 0 := by rw [shuffle_small hmn (Nat.mul_pos hm hn), Nat.zero_mod]
      have eq : ∀ y : Nat → Nat → ℝ, lossTangent m k (pre ++ (n, f) :: (n', f') :: post) (onPath fun _ => 1) y θ (unit (2 * pre.length) (r * n + e)) =
          lossTangent m k (pre ++ (n, f) :: (n', f') :: post) (onPath fun _ => 1) y θ (unit (2 * pre.length) (r * n + t)) := by
        intro y
        obtain ⟨θ', h1, h2⟩ := comm (onPath fun _ => 1) y θ (Equiv.swap e t) (swap_lt hen ht)
        have h1 := h1 (2 * pre.length, r * n + e) (at_ _ (mem_weights hrK hen))
        have h2 := h2 (2 * pre.length, r * n + t) (at_ _ (mem_weights hrK ht))
        dsimp only at h1 h2
        rw [rename_weights θ' ht, Equiv.swap_apply_right, hren e t he ht0, hw] at h2
        rw [hw] at h1
        linarith
      have f1 := flip (unit (2 * pre.length) (r * n + e))
      have f2 := flip (unit (2 * pre.length) (r * n + t))
      rw [eq, eq, f2, hT _ (fun q h1 h2 c => by simp [unit, h1]), hT _ (fun q h1 h2 c => by simp [unit, h1]), h0] at f1
      have g1 : shuffledMat K n (fun i j => unit (2 * pre.length) (r * n + e) (2 * pre.length) (i * n + j)) 0 0 = 1 := by
        simp only [shuffledMat, unit, Nat.zero_mul, Nat.add_zero, true_and, hr, hedef, if_true]
      have g2 : shuffledMat K n (fun i j => unit (2 * pre.length) (r * n + t) (2 * pre.length) (i * n + j)) 0 0 = 0 := by
        simp only [shuffledMat, unit, Nat.zero_mul, Nat.add_zero, true_and]
        rw [if_neg]
        intro h
        exact hte (Nat.add_left_cancel h).symm
      have g3 : ∀ c, unit (2 * pre.length) c (2 * pre.length + 1) 0 = 0 := by simp [unit]
      rw [g1, g2, g3, g3] at f1
      have := pathFn_pos pre one_pos
      linarith
    · have he := col_ne m (by omega)
      set e := shuffle (m * n) 0 % n with hedef
      obtain ⟨t, ht, ht0, hte⟩ := hother e
      have hen : e < n := Nat.mod_lt _ hn
      have eq : ∀ y : Nat → Nat → ℝ, lossTangent m k (pre ++ (n, f) :: (n', f') :: post) (onPath fun _ => 1) y θ (unit (2 * pre.length + 1) e) =
          lossTangent m k (pre ++ (n, f) :: (n', f') :: post) (onPath fun _ => 1) y θ (unit (2 * pre.length + 1) t) := by
        intro y
        obtain ⟨θ', h1, h2⟩ := comm (onPath fun _ => 1) y θ (Equiv.swap e t) (swap_lt hen ht)
        have h1 := h1 (2 * pre.length + 1, e) (at_ _ (mem_bias hen))
        have h2 := h2 (2 * pre.length + 1, t) (at_ _ (mem_bias ht))
        dsimp only at h1 h2
        rw [rename_bias θ', Equiv.swap_apply_right, hren e t he ht0, hb] at h2
        rw [hb] at h1
        linarith
      have f1 := flip (unit (2 * pre.length + 1) e)
      have f2 := flip (unit (2 * pre.length + 1) t)
      rw [eq, eq, f2, hT _ (fun q h1 h2 c => by simp [unit, h2]), hT _ (fun q h1 h2 c => by simp [unit, h2])] at f1
      have g1 : ∀ c, shuffledMat (lastWidth k pre) n (fun i j => unit (2 * pre.length + 1) c (2 * pre.length) (i * n + j)) 0 e = 0 := by
        simp [shuffledMat, unit]
      rw [g1, g1] at f1
      simp [unit, hte.symm] at f1
  · intro hU h₁ h₂ mlp₁ mlp₂ x₁ y₁ x₂ y₂ a b θ lr σ hσ ht₁ ht₂
    obtain ⟨h₁', mlp₁', h₂', mlp₂', θ', e₁, e₂, H⟩ := C82_wide_partial h₁ h₂ mlp₁ mlp₂ x₁ y₁ x₂ y₂ m k n n' f f' pre post a b θ lr 1 σ hσ ht₁ ht₂ hU
    refine ⟨h₁', mlp₁', h₂', mlp₂', θ', ?_, ?_, H⟩
    · simp only [train, R.bind_eq_ok] at e₁
      obtain ⟨⟨h1, mlp1⟩, e1, e2⟩ := e₁
      rw [e1]
      exact e2
    · simp only [train, R.bind_eq_ok] at e₂
      obtain ⟨⟨h1, mlp1⟩, e1, e2⟩ := e₂
      rw [e1]
      exact e2

/-- C82, test: 100 rows of 50 features, 4 units with relu, 8 with tanh, 1000 outputs; exchanging the 4 units, for any data and parameters. -/
example (a b θ : Nat → Nat → ℝ) (lr : ℝ) (N : Nat) : ∃ h₁ mlp₁ h₂ mlp₂ h₁' mlp₁' h₂' mlp₂' θ',
    Training h₁ mlp₁ 0 1 100 50 [(4, .relu), (8, .tanh), (1000, .identity)] a b θ ∧
    Training h₂ mlp₂ 0 1 100 50 [(4, .relu), (8, .tanh), (1000, .identity)] a b (renameUnits 0 4 8 (Equiv.swap 1 3) θ) ∧
    train mlp₁ h₁ 0 1 lr N = .ok (h₁', mlp₁') ∧ train mlp₂ h₂ 0 1 lr N = .ok (h₂', mlp₂') ∧
    NetIs h₁' mlp₁' 50 [(4, .relu), (8, .tanh), (1000, .identity)] θ' ∧
    NetIs h₂' mlp₂' 50 [(4, .relu), (8, .tanh), (1000, .identity)] (renameUnits 0 4 8 (Equiv.swap 1 3) θ') := by
  have t₁ := training_exists 100 50 [(4, .relu), (8, .tanh), (1000, .identity)] a b θ (by omega) (by omega) (by simp)
  have t₂ := training_exists 100 50 [(4, .relu), (8, .tanh), (1000, .identity)] a b (renameUnits 0 4 8 (Equiv.swap 1 3) θ) (by omega) (by omega) (by simp)
  obtain ⟨h₁', mlp₁', h₂', mlp₂', θ', H⟩ := C82_wide_partial _ _ _ _ _ _ _ _ 100 50 4 8 .relu .tanh [] [(1000, .identity)] a b θ lr N (Equiv.swap 1 3) (by decide) t₁ t₂
    ⟨Or.inl (by decide), Or.inl (by decide)⟩
  exact ⟨_, _, _, _, h₁', mlp₁', h₂', mlp₂', θ', t₁, t₂, H⟩

end RL
