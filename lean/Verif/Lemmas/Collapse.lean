import Verif.Lemmas.Batch
import Verif.Lemmas.Settle

/-!
# Lemmas: networks without activations, relu networks without biases (C120, C121)
-/

namespace RL

open Spec

theorem collapse {K : Nat} (θ : Nat → Nat → ℝ) : ∀ (ds : List (Nat × Act)) (k q : Nat), (∀ d ∈ ds, d.2 = .identity) → ∀ (w : Nat → Nat → ℝ) (c : Nat → ℝ),
    ∃ (w' : Nat → Nat → ℝ) (c' : Nat → ℝ), ∀ a : Nat → Nat → ℝ, netValue k (layerFns θ q ds) (affine K a w c) = affine K a w' c'
  | [], _, _, _, w, c => ⟨w, c, fun _ => rfl⟩
  | (n, f) :: ds, k, q, h, w, c => by
    obtain rfl : f = .identity := h _ List.mem_cons_self
    obtain ⟨w', c', h'⟩ := collapse θ ds n (q + 2) (fun d hd => h d (List.mem_cons_of_mem _ hd))
      (fun r j => ∑ kk ∈ Finset.range k, w r kk * θ q (kk * n + j)) (fun j => (∑ kk ∈ Finset.range k, c kk * θ q (kk * n + j)) + θ (q + 1) j)
    refine ⟨w', c', fun a => ?_⟩
    rw [← h']
    simp only [layerFns, netValue]
    congr 1
    funext i j
    simp only [Act.fn, id, affine_sum, add_mul, Finset.sum_add_distrib, Finset.sum_mul, Finset.mul_sum]
    rw [Finset.sum_comm, add_assoc]
    congr 1
    exact Finset.sum_congr rfl fun r _ => Finset.sum_congr rfl fun kk _ => mul_assoc _ _ _

theorem collapse_net (θ : Nat → Nat → ℝ) (ds : List (Nat × Act)) (k q : Nat) (hne : ds ≠ []) (hd : ∀ d ∈ ds, d.2 = .identity) :
    ∃ (w : Nat → Nat → ℝ) (c : Nat → ℝ), ∀ a : Nat → Nat → ℝ, netValue k (layerFns θ q ds) a = affine k a w c := by
  obtain ⟨⟨n, f⟩, ds, rfl⟩ := List.exists_cons_of_ne_nil hne
  obtain rfl : f = .identity := hd _ List.mem_cons_self
  exact collapse θ ds n (q + 2) (fun d h => hd d (List.mem_cons_of_mem _ h)) _ _

theorem fn_scale {f : Act} (hf : f ≠ .tanh) {s : ℝ} (hs : 0 ≤ s) (x : ℝ) : f.fn (s * x) = s * f.fn x := by
  cases f with
  | tanh => exact absurd rfl hf
  | relu =>
    simp only [Act.fn]
    rw [mul_max_of_nonneg _ _ hs, mul_zero]
  | identity => rfl

theorem value_scale (θ : Nat → Nat → ℝ) {s : ℝ} (hs : 0 ≤ s) : ∀ (ds : List (Nat × Act)) (k q : Nat), q % 2 = 0 → (∀ d ∈ ds, d.2 ≠ .tanh) → (∀ p c, p % 2 = 1 → θ p c = 0) →
    ∀ a : Nat → Nat → ℝ, netValue k (layerFns θ q ds) (fun i j => s * a i j) = fun i j => s * netValue k (layerFns θ q ds) a i j
  | [], _, _, _, _, _, _ => rfl
  | (n, f) :: ds, k, q, hq, h, hθ, a => by
    simp only [layerFns, netValue]
    rw [← value_scale θ hs ds n (q + 2) (by omega) (fun d hd => h d (List.mem_cons_of_mem _ hd)) hθ]
    congr 1
    funext i j
    rw [← fn_scale (h _ List.mem_cons_self) hs]
    simp only [affine_sum, hθ (q + 1) _ (by omega), add_zero, Finset.mul_sum, mul_assoc]

end RL
