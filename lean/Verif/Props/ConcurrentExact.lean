import Verif.Lemmas.PoolBlock
import Verif.Props.ConcurrentMany

/-!
# When threads that share the pool can block each other, exactly (C34, C62)
-/

namespace RL

open Spec SplitWriter Relation

variable {T : Type} [Zero T] [Add T] [Mul T]

/-- C34, exactly: a call of `bmm_jvp` with at least one task and one element of the left gradient can always finish, however the run has
gone so far, if and only if it is made from outside of the pool or the pool has another worker. Otherwise it never finishes
(`C34_inside_blocks`). -/
theorem C34_exact (a b jac : Raw T) (sh : BmmJvpShapes) (progs : List (Prog T)) (h : IsScope a b jac sh progs) (hpr : progs ≠ [])
    (hl : 0 < sh.leftOutput.prod) (n : Nat) (caller : Option Nat) (hn : 1 ≤ n) (hcl : ∀ c, caller = some c → c < n) :
    (∀ p, ReflTransGen (PStep n caller) (PSt.init progs (lens sh)) p → ∃ p', ReflTransGen (PStep n caller) p p' ∧ p'.Complete n) ↔
      caller = none ∨ 2 ≤ n := by
  constructor
  · intro hf
    by_contra hc
    rw [not_or] at hc
    obtain rfl : n = 1 := by omega
    cases caller with
    | none => exact hc.1 rfl
    | some c =>
      obtain rfl : c = 0 := by have := hcl c rfl; omega
      obtain ⟨p', h1, h2⟩ := hf _ .refl
      exact C34_inside_blocks progs (lens sh) hpr (by simpa [lens] using hl) p' h1 h2
  · intro hc p hp
    exact C34_finishes_partial a b jac sh progs h n caller hn (fun c e => ⟨hcl c e, hc.resolve_left (by rw [e]; simp)⟩) p hp

/-- C62, what goes wrong: if every worker of the pool is the thread of a caller (one thread for each worker) whose first call passes its
checks and has at least one task and one element of the left gradient, then, whatever these calls and those of the threads outside of the
pool are, all callers in the pool may block forever: there is a run after which none of these calls ever returns, however it goes on. -/
theorem C62_blocks (n K : Nat) (place : Nat → Option Nat) (hpl : ∀ t < K, ∀ c, place t = some c → c < n)
    (hinj : ∀ s < K, ∀ t < K, ∀ c, place s = some c → place t = some c → s = t)
    (calls : Nat → List (Call T)) (f : Nat → Nat) (hf : ∀ w < n, f w < K ∧ place (f w) = some w)
    (hc : ∀ w < n, ∃ c more sh progs, calls (f w) = c :: more ∧ IsScope c.left c.right c.jac sh progs ∧ progs ≠ [] ∧ 0 < sh.leftOutput.prod) :
    ∃ p, ReflTransGen (MStep n K place) (MSt.init calls) p ∧ ∀ p', ReflTransGen (MStep n K place) p p' →
      ∀ w < n, (p'.thread (f w)).active = true ∧ (p'.thread (f w)).results = [] := by
  have ho : ∀ t < K, ∀ w, place t = some w → t = f w := fun t ht w htw =>
    hinj t ht (f w) (hf w (hpl t ht w htw)).1 w htw (hf w (hpl t ht w htw)).2
  obtain ⟨p, h1, h2, _, _⟩ := block_all (n := n) (K := K) (place := place) (f := f) hf (p := MSt.init calls) (fun _ _ => rfl)
    (fun w hw => ⟨rfl, rfl, hc w hw⟩) (fun t ht w htw hne => absurd (ho t ht w htw) hne) n le_rfl
  have hs : Stuck n K place f p := ⟨h2, fun t ht w htw hne => absurd (ho t ht w htw) hne⟩
  refine ⟨p, h1, fun p' hp w hw => ?_⟩
  have := (hs.forever hpl (fun w hw => (hf w hw).2) hp).blocked w hw
  exact ⟨this.active, this.results⟩

/-- a call with 1 x 1 matrices -/
def oneCall (x : T) : Call T := ⟨⟨[x], [1, 1]⟩, ⟨[x], [1, 1]⟩, ⟨[x], [1, 1]⟩⟩

theorem oneCall_scope (x : T) : ∃ sh progs, IsScope (oneCall x).left (oneCall x).right (oneCall x).jac sh progs ∧ progs ≠ [] ∧ 0 < sh.leftOutput.prod := by
  refine ⟨⟨[1, 1], [1, 1], [1, 1], [1, 1]⟩, [⟨[⟨false, 0, x * x⟩, ⟨true, 0, x * x⟩], false⟩], ⟨rfl, 1, 1, 1, rfl, rfl, rfl, ?_⟩, by simp, by simp⟩
  exact List.Forall₂.cons rfl .nil

/-- C62, exactly: threads that share the pool can always finish, whatever they call and however the run has gone so far, if and only if
there are none or some worker of the pool is not the thread of a caller. -/
theorem C62_exact (n K : Nat) (place : Nat → Option Nat) (hpl : ∀ t < K, ∀ c, place t = some c → c < n) :
    (∀ (calls : Nat → List (Call T)) (p : MSt T), ReflTransGen (MStep n K place) (MSt.init calls) p →
      ∃ p', ReflTransGen (MStep n K place) p p' ∧ p'.Complete K) ↔ K = 0 ∨ ∃ v < n, ∀ t < K, place t ≠ some v := by
  constructor
  · intro h
    by_contra hn
    rw [not_or] at hn
    obtain ⟨hK, hn⟩ := hn
    have hx : ∀ w, ∃ t, w < n → t < K ∧ place t = some w := by
      intro w
      by_contra hc
      simp only [not_exists, Classical.not_imp] at hc
      have hw := (hc 0).1
      exact hn ⟨w, hw, fun t ht e => (hc t).2 ⟨ht, e⟩⟩
    choose f hf using hx
    rcases Nat.eq_zero_or_pos n with rfl | hpos
    · have hnone : place 0 = none := by
        cases hp : place 0 with
        | none => rfl
        | some c => exact absurd (hpl 0 (by omega) c hp) (by omega)
      obtain ⟨sh, progs, hsc, hne, _⟩ := oneCall_scope (0 : T)
      have hs := MStep.enter (n := 0) (K := K) (place := place) (p := MSt.init fun _ => [oneCall (0 : T)]) (t := 0) (by omega) rfl rfl hsc
      obtain ⟨p', hp, hcp⟩ := h _ _ (.single hs)
      have := (no_workers (t := 0) hp ⟨by simp [MSt.setThread], .inl (by simp [MSt.setThread, mainJobs])⟩).1
      rw [(hcp 0 (by omega)).1] at this
      cases this
    · classical
      let calls : Nat → List (Call T) := fun t => if ∃ w < n, f w = t then [oneCall 0] else []
      have hcalls : ∀ w < n, calls (f w) = [oneCall 0] := fun w hw => if_pos ⟨w, hw, rfl⟩
      have ho : ∀ t < K, ∀ w, place t = some w → t ≠ f w → calls t = [] := by
        intro t ht w htw hne
        refine if_neg ?_
        rintro ⟨v, hv, rfl⟩
        rw [(hf v hv).2] at htw
        cases htw
        exact hne rfl
      obtain ⟨p, h1, h2, _, h4⟩ := block_all (n := n) (K := K) (place := place) (f := f) hf (p := MSt.init calls) (fun _ _ => rfl)
        (fun w hw => ⟨rfl, rfl, _, _, (oneCall_scope 0).choose, (oneCall_scope 0).choose_spec.choose, hcalls w hw,
          (oneCall_scope 0).choose_spec.choose_spec⟩) (fun t ht w htw hne => ⟨rfl, ho t ht w htw hne, rfl⟩) n le_rfl
      have hs : Stuck n K place f p := ⟨h2, fun t ht w htw hne => by
        rw [h4 t fun v hv e => by
          rw [e, (hf v hv).2] at htw
          cases htw
          exact hne e]
        exact ⟨rfl, ho t ht w htw hne, rfl⟩⟩
      obtain ⟨p', hp, hcp⟩ := h calls p h1
      have := ((hs.forever hpl (fun w hw => (hf w hw).2) hp).blocked 0 hpos).active
      rw [(hcp _ (hf 0 hpos).1).1] at this
      cases this
  · rintro (rfl | ⟨v, hv, hv2⟩) calls p hp
    · exact ⟨p, .refl, fun t ht => absurd ht (by omega)⟩
    · exact C62_finishes_partial n K place hpl v hv hv2 calls p hp

/-- C34, test: the hypotheses hold for a product of 1 x 1 matrices, called on the second of two workers. -/
example : ∀ p, ReflTransGen (PStep 2 (some 1)) (PSt.init ConcurrentTest.progs (lens ConcurrentTest.shapes)) p →
    ∃ p', ReflTransGen (PStep 2 (some 1)) p p' ∧ p'.Complete 2 :=
  (C34_exact _ _ _ _ _ ConcurrentTest.scope (by simp [ConcurrentTest.progs]) (by decide) 2 (some 1) (by decide) (by rintro c ⟨⟩; decide)).2 (.inr le_rfl)

/-- C62, test: three threads on the three workers of a pool, and one outside. -/
example : ¬ ∀ (calls : Nat → List (Call Int)) (p : MSt Int), ReflTransGen (MStep 3 4 fun t => if t < 3 then some t else none) (MSt.init calls) p →
    ∃ p', ReflTransGen (MStep 3 4 fun t => if t < 3 then some t else none) p p' ∧ p'.Complete 4 := by
  rw [C62_exact 3 4 _ (by intro t _ c h; split at h <;> simp_all)]
  rintro (h | ⟨v, hv, h⟩)
  · cases h
  · exact h v (by omega) (by simp [hv])

end RL
