import Verif.Props.Memory
import Verif.Lemmas.MemPath

/-!
# How deep the drop of a tensor nests, exactly (C69)
-/

namespace RL

open Spec

variable {T : Type}
variable [Zero T] [One T] [Add T] [Mul T] [Sub T] [Neg T] [LT T] [DecidableLT T] [LE T] [DecidableLE T] [RealFn T]

/-- C69: behind a drop that nests `d` calls deep is a chain of `d` tensors, each of which keeps the next one, that it has freed. -/
theorem C69_path (os : List (MemOp T)) (m m' : Mem T) (e : runMem Mem.empty os = .ok m) (t d : Nat) (ed : m.drop t = .ok (m', d)) :
    ∃ x : Nat → Nat, x 0 = t ∧ ∀ k < d, Refers m.heap (x k) (x (k + 1)) ∧ Live m (x k) ∧ ¬ Live m' (x k) := by
  have hm := (runMem_inv os Mem.inv_empty e).1
  obtain ⟨h1, c, h2, rfl⟩ := Mem.drop_inv ed
  obtain ⟨i, x, x1, _, x3⟩ := release_path (t := t) _ _ _ _ _ _ (by simpa using hm.drop_bal h1) h2 (fun _ => le_rfl) ⟨t, fun _ => t, rfl, rfl, by simp⟩
    (by
      intro w hw
      rw [List.mem_singleton] at hw
      subst hw
      exact ⟨fun _ => t, rfl, rfl, by simp⟩)
  refine ⟨x, x1, fun k hk => ⟨(x3 k hk).1, (x3 k hk).2.1, ?_⟩⟩
  simpa [Live] using (x3 k hk).2.2

/-- C69, exactly: if every tensor that the drop frees had one owner only, the drop nests as deep as the longest chain of freed tensors is
long, each of which keeps the next one. -/
theorem C69_exact (os : List (MemOp T)) (m m' : Mem T) (e : runMem Mem.empty os = .ok m) (t d : Nat) (ed : m.drop t = .ok (m', d))
    (h1 : ∀ i, Live m i → ¬ Live m' i → m.count i = 1) :
    IsGreatest {n | ∃ x : Nat → Nat, x 0 = t ∧ ∀ k < n, Refers m.heap (x k) (x (k + 1)) ∧ Live m (x k) ∧ ¬ Live m' (x k)} d := by
  refine ⟨C69_path os m m' e t d ed, ?_⟩
  rintro n ⟨x, rfl, hx⟩
  have hm := (runMem_inv os Mem.inv_empty e).1
  obtain ⟨h2, c, h3, _⟩ := Mem.drop_inv ed
  exact release_chain_next (fun k hk => (hx k hk).1) _ _ _ _ _ _ 0 0 (by simpa using hm.drop_bal h2) h3 (Nat.zero_le _) (by simp) le_rfl
    fun j _ hj => h1 _ (hx j hj).2.1 (hx j hj).2.2

attribute [local instance] Test.intFn

/-- C69, test: in the chain of three negations every tensor has one owner, and the drop of the last one frees all four -/
example : ((runMem Mem.empty (C69_program 3)).bind fun m => (m.drop 3).map fun r => ((List.range 4).map m.count, (List.range 4).map r.1.count, r.2)) =
    .ok ([1, 1, 1, 1], [0, 0, 0, 0], 3) := by decide +kernel

end RL
