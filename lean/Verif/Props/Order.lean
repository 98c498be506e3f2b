import Verif.Lemmas.Order
import Verif.Props.Units

/-!
# The order of the features of the input (C107)
-/

namespace RL

open Spec

/-- C107, full statement: the order of the features does not matter for training. If the features of the inputs of two runs, and the weights
that read them, only differ by the order `σ`, then so do the parameters after any number of steps. It is false: see `C107_false`. -/
def C107_statement : Prop :=
  ∀ (h₁ h₂ : Heap ℝ) (mlp₁ mlp₂ : Mlp ℝ) (x₁ y₁ x₂ y₂ m k n : Nat) (f : Act) (ds : List (Nat × Act)) (a b θ : Nat → Nat → ℝ) (lr : ℝ) (N : Nat)
    (σ : Equiv.Perm Nat), (∀ r < k, σ r < k) → Training h₁ mlp₁ x₁ y₁ m k ((n, f) :: ds) a b θ →
    Training h₂ mlp₂ x₂ y₂ m k ((n, f) :: ds) (fun i r => a i (σ r)) b (renameFeatures n σ θ) →
    ∃ h₁' mlp₁' h₂' mlp₂' θ', train mlp₁ h₁ x₁ y₁ lr N = .ok (h₁', mlp₁') ∧ train mlp₂ h₂ x₂ y₂ lr N = .ok (h₂', mlp₂') ∧
      NetIs h₁' mlp₁' k ((n, f) :: ds) θ' ∧ NetIs h₂' mlp₂' k ((n, f) :: ds) (renameFeatures n σ θ')

/-- C107 if the weights of the first layer are at most 32, or of one feature, or of two features and at most 32 units or a multiple of 32
units; the other layers may have any size. Missing: all other first layers; for these it is false (`C107_exact`). -/
theorem C107_partial (h₁ h₂ : Heap ℝ) (mlp₁ mlp₂ : Mlp ℝ) (x₁ y₁ x₂ y₂ m k n : Nat) (f : Act) (ds : List (Nat × Act)) (a b θ : Nat → Nat → ℝ) (lr : ℝ)
    (N : Nat) (σ : Equiv.Perm Nat) (hσ : ∀ r < k, σ r < k) (ht₁ : Training h₁ mlp₁ x₁ y₁ m k ((n, f) :: ds) a b θ)
    (ht₂ : Training h₂ mlp₂ x₂ y₂ m k ((n, f) :: ds) (fun i r => a i (σ r)) b (renameFeatures n σ θ)) (hS : RowsAlike k n) :
    ∃ h₁' mlp₁' h₂' mlp₂' θ', train mlp₁ h₁ x₁ y₁ lr N = .ok (h₁', mlp₁') ∧ train mlp₂ h₂ x₂ y₂ lr N = .ok (h₂', mlp₂') ∧
      NetIs h₁' mlp₁' k ((n, f) :: ds) θ' ∧ NetIs h₂' mlp₂' k ((n, f) :: ds) (renameFeatures n σ θ') := by
  obtain ⟨h₁', mlp₁', e₁, t₁⟩ := C50_actual N h₁ mlp₁ x₁ y₁ m k _ a b θ lr ht₁
  obtain ⟨h₂', mlp₂', e₂, t₂⟩ := C50_actual N h₂ mlp₂ x₂ y₂ m k _ _ b _ lr ht₂
  refine ⟨h₁', mlp₁', h₂', mlp₂', _, e₁, e₂, t₁.net, ?_⟩
  have hn := training_widths ht₁ (n, f) List.mem_cons_self
  have hcomm : ∀ (N : Nat) (θ : Nat → Nat → ℝ), (shuffledDescend lr m k ((n, f) :: ds) (fun i r => a i (σ r)) b)^[N] (renameFeatures n σ θ) =
      renameFeatures n σ ((shuffledDescend lr m k ((n, f) :: ds) a b)^[N] θ) := by
    intro N
    induction N with
    | zero => intro θ; rfl
    | succ N ih =>
      intro θ
      rw [Function.iterate_succ_apply, Function.iterate_succ_apply, shuffledDescend_features hn hσ hS, ih]
  rw [← hcomm]
  exact t₂.net

/-- C107, for all sizes: the order of the features does not matter for the loss. -/
theorem C107_loss (h₁ h₂ : Heap ℝ) (mlp₁ mlp₂ : Mlp ℝ) (x₁ y₁ x₂ y₂ m k n : Nat) (f : Act) (ds : List (Nat × Act)) (a b θ : Nat → Nat → ℝ)
    (σ : Equiv.Perm Nat) (hσ : ∀ r < k, σ r < k) (ht₁ : Training h₁ mlp₁ x₁ y₁ m k ((n, f) :: ds) a b θ)
    (ht₂ : Training h₂ mlp₂ x₂ y₂ m k ((n, f) :: ds) (fun i r => a i (σ r)) b (renameFeatures n σ θ)) :
    ∃ h₁' l₁ h₂' l₂ L, trainLoss mlp₁ h₁ x₁ y₁ = .ok (h₁', l₁) ∧ trainLoss mlp₂ h₂ x₂ y₂ = .ok (h₂', l₂) ∧
      dataOf h₁' l₁ = some ⟨[L], []⟩ ∧ dataOf h₂' l₂ = some ⟨[L], []⟩ := by
  obtain ⟨h₁', l₁, e₁, d₁⟩ := C54_loss _ _ _ _ _ _ _ _ _ _ ht₁
  obtain ⟨h₂', l₂, e₂, d₂⟩ := C54_loss _ _ _ _ _ _ _ _ _ _ ht₂
  rw [netLoss_features hσ] at d₂
  exact ⟨h₁', l₁, h₂', l₂, _, e₁, e₂, d₁, d₂⟩

/-- C107, exactly for which networks, already for one step. -/
theorem C107_exact (m k n : Nat) (f : Act) (ds : List (Nat × Act)) (hm : 0 < m) (hk : 0 < k) (hd : ∀ d ∈ (n, f) :: ds, 0 < d.1) :
    (∀ (h₁ h₂ : Heap ℝ) (mlp₁ mlp₂ : Mlp ℝ) (x₁ y₁ x₂ y₂ : Nat) (a b θ : Nat → Nat → ℝ) (lr : ℝ) (σ : Equiv.Perm Nat), (∀ r < k, σ r < k) →
      Training h₁ mlp₁ x₁ y₁ m k ((n, f) :: ds) a b θ →
      Training h₂ mlp₂ x₂ y₂ m k ((n, f) :: ds) (fun i r => a i (σ r)) b (renameFeatures n σ θ) →
      ∃ h₁' mlp₁' h₂' mlp₂' θ', trainStep mlp₁ h₁ x₁ y₁ lr = .ok (h₁', mlp₁') ∧ trainStep mlp₂ h₂ x₂ y₂ lr = .ok (h₂', mlp₂') ∧
        NetIs h₁' mlp₁' k ((n, f) :: ds) θ' ∧ NetIs h₂' mlp₂' k ((n, f) :: ds) (renameFeatures n σ θ')) ↔
    k * n ≤ 32 ∨ k = 1 ∨ k = 2 ∧ (n ≤ 32 ∨ 32 ∣ n) := by
  have hn : 0 < n := hd _ List.mem_cons_self
  constructor
  · intro H
    by_contra hS
    obtain ⟨s, hs, t, ht, p, hp, p', hp', e, hne⟩ := shuffle_moveRow_ne hk hn hS
    have hσ : ∀ r < k, Equiv.swap s t r < k := by
      intro r hr
      rw [Equiv.swap_apply_def]
      split
      · exact ht
      · split
        · exact hs
        · exact hr
    have hkn : n ≤ k * n := Nat.le_mul_of_pos_left _ hk
    have hones : renameFeatures n (Equiv.swap s t) ones = ones := by
      funext q c
      by_cases h : q = 0 <;> simp [renameFeatures, ones, h]
    have t₁ := training_exists m k ((n, f) :: ds) (onPath fun _ => 1) (fun _ _ => 0) ones hm hk hd
    have t₂ := training_exists m k ((n, f) :: ds) (fun i r => onPath (fun _ => 1) i (Equiv.swap s t r)) (fun _ _ => 0) ones hm hk hd
    obtain ⟨h₁', mlp₁', h₂', mlp₂', θ', e₁, e₂, n₁, n₂⟩ := H _ _ _ _ _ _ _ _ _ _ ones 1 (Equiv.swap s t) hσ t₁ (by rw [hones]; exact t₂)
    obtain ⟨_, _, f₁, u₁⟩ := C50_step_actual _ _ _ _ _ _ _ _ _ _ 1 t₁
    obtain ⟨_, _, f₂, u₂⟩ := C50_step_actual _ _ _ _ _ _ _ _ _ _ 1 t₂
    rw [e₁] at f₁
    rw [e₂] at f₂
    cases f₁
    cases f₂
    have hlt := shuffle_lt (show p < k * n by omega)
    have hlt' := shuffle_lt hp'
    have c₁ := n₁.unique u₁.net (q := 0) (c := shuffle (k * n) p) (by simp [coords, hlt])
    have c₂ := n₂.unique u₂.net (q := 0) (c := shuffle (k * n) p') (by simp [coords, hlt'])
    have hpos := lossTangent_used (f := f) (ds := ds) hm hk hd hp
    have hz : lossTangent m k ((n, f) :: ds) (fun i r => onPath (fun _ => 1) i (Equiv.swap s t r)) (fun _ _ => 0) ones (unit 0 (shuffle (k * n) p')) = 0 := by
      refine lossTangent_feature fun r hr j hj h i _ => ?_
      have := segPos_inj (mul_add_lt hr hj) hp' h
      rw [← this, Nat.mul_comm r n, Nat.mul_add_div hn, Nat.div_eq_of_lt hj, Nat.add_zero] at hne
      simp [onPath, hne]
    have hmv : renameFeatures n (Equiv.swap s t) θ' 0 (shuffle (k * n) p') = θ' 0 (shuffle (k * n) p) := by
      rw [← e]
      change θ' 0 (moveRow n (Equiv.swap s t) (moveRow n (Equiv.swap s t) _)) = _
      have hinv : moveRow n (Equiv.swap s t) (moveRow n (Equiv.swap s t) (shuffle (k * n) p)) = shuffle (k * n) p := by
        conv_lhs => arg 3; unfold moveRow
        rw [moveRow_at _ (Nat.mod_lt _ hn), Equiv.swap_apply_self, Nat.div_add_mod']
      rw [hinv]
    rw [hmv, c₁] at c₂
    change ones 0 _ - 1 * lossTangent m k ((n, f) :: ds) _ _ ones (unit 0 _) = ones 0 _ - 1 * lossTangent m k ((n, f) :: ds) _ _ ones (unit 0 _) at c₂
    rw [hz] at c₂
    have ho : ∀ c, ones 0 c = 1 := fun c => by simp [ones]
    rw [ho, ho] at c₂
    linarith
  · intro hS h₁ h₂ mlp₁ mlp₂ x₁ y₁ x₂ y₂ a b θ lr σ hσ ht₁ ht₂
    obtain ⟨h₁', mlp₁', h₂', mlp₂', θ', e₁, e₂, H⟩ := C107_partial h₁ h₂ mlp₁ mlp₂ x₁ y₁ x₂ y₂ m k n f ds a b θ lr 1 σ hσ ht₁ ht₂ hS
    refine ⟨h₁', mlp₁', h₂', mlp₂', θ', ?_, ?_, H⟩
    · simp only [train, R.bind_eq_ok] at e₁
      obtain ⟨⟨h1, mlp1⟩, e1, e2⟩ := e₁
      rw [e1]
      exact e2
    · simp only [train, R.bind_eq_ok] at e₂
      obtain ⟨⟨h1, mlp1⟩, e1, e2⟩ := e₂
      rw [e1]
      exact e2

/-- C107 is false: 3 features, 11 units. -/
theorem C107_false : ¬ C107_statement := by
  intro H
  have := (C107_exact 1 3 11 .identity [] (by omega) (by omega) (by simp)).1 fun h₁ h₂ mlp₁ mlp₂ x₁ y₁ x₂ y₂ a b θ lr σ hσ ht₁ ht₂ => by
    obtain ⟨h₁', mlp₁', h₂', mlp₂', θ', e₁, e₂, H⟩ := H h₁ h₂ mlp₁ mlp₂ x₁ y₁ x₂ y₂ 1 3 11 .identity [] a b θ lr 1 σ hσ ht₁ ht₂
    refine ⟨h₁', mlp₁', h₂', mlp₂', θ', ?_, ?_, H⟩
    · simp only [train, R.bind_eq_ok] at e₁
      obtain ⟨⟨h1, mlp1⟩, e1, e2⟩ := e₁
      rw [e1]
      exact e2
    · simp only [train, R.bind_eq_ok] at e₂
      obtain ⟨⟨h1, mlp1⟩, e1, e2⟩ := e₂
      rw [e1]
      exact e2
  omega

/-- C107, test: two features, 64 units: exchanging the features, for any parameters. -/
example (m : Nat) (f : Act) (ds : List (Nat × Act)) (a b θ : Nat → Nat → ℝ) (lr : ℝ) (N : Nat) (hm : 0 < m) (hd : ∀ d ∈ ds, 0 < d.1) :
    ∃ h₁ mlp₁ h₂ mlp₂ h₁' mlp₁' h₂' mlp₂' θ', Training h₁ mlp₁ 0 1 m 2 ((64, f) :: ds) a b θ ∧
      Training h₂ mlp₂ 0 1 m 2 ((64, f) :: ds) (fun i r => a i (Equiv.swap 0 1 r)) b (renameFeatures 64 (Equiv.swap 0 1) θ) ∧
      train mlp₁ h₁ 0 1 lr N = .ok (h₁', mlp₁') ∧ train mlp₂ h₂ 0 1 lr N = .ok (h₂', mlp₂') ∧
      NetIs h₁' mlp₁' 2 ((64, f) :: ds) θ' ∧ NetIs h₂' mlp₂' 2 ((64, f) :: ds) (renameFeatures 64 (Equiv.swap 0 1) θ') := by
  have hd' : ∀ d ∈ (64, f) :: ds, 0 < d.1 := by
    intro d hm
    rcases List.mem_cons.1 hm with rfl | h
    · simp
    · exact hd d h
  have t₁ := training_exists m 2 ((64, f) :: ds) a b θ hm (by omega) hd'
  have t₂ := training_exists m 2 ((64, f) :: ds) (fun i r => a i (Equiv.swap 0 1 r)) b (renameFeatures 64 (Equiv.swap 0 1) θ) hm (by omega) hd'
  obtain ⟨h₁', mlp₁', h₂', mlp₂', θ', H⟩ := C107_partial _ _ _ _ _ _ _ _ m 2 64 f ds a b θ lr N (Equiv.swap 0 1) (by decide) t₁ t₂ (.inr (.inr ⟨rfl, .inr (by decide)⟩))
  exact ⟨_, _, _, _, h₁', mlp₁', h₂', mlp₂', θ', t₁, t₂, H⟩

end RL
