import Verif.Props.Concurrent
import Verif.Lemmas.Delay
import Mathlib.Data.Fintype.EquivFin

/-! Helper lemmas: late tasks of `bmm_jvp` -/

namespace RL

open Spec SplitWriter

variable {T : Type}

/-- two runs: all tasks in order, and task `i` last -/
theorem late_runs [Zero T] [Add T] [Mul T] {a b jac : Raw T} {sh : BmmJvpShapes} {progs : List (Prog T)} (h : IsScope a b jac sh progs)
    (hf : ∀ pr ∈ progs, pr.fails = false) {n : Nat} (hn : 2 ≤ n) {i : Nat} (hi : i < progs.length) :
    ∃ p q : PSt T, Relation.ReflTransGen (PStep n none) (PSt.init progs (lens sh)) p ∧ p.Complete n ∧
      Relation.ReflTransGen (PStep n none) (PSt.init progs (lens sh)) q ∧ q.Complete n ∧
      ∀ side, p.data.arr side = accum (List.replicate (lens sh side) 0) (contribs side (lens sh side) (progs.flatMap (·.msgs))) ∧
        q.data.arr side = accum (List.replicate (lens sh side) 0)
          (contribs side (lens sh side) ((progs.eraseIdx i).flatMap (·.msgs) ++ progs[i].msgs)) := by
  have hr : InRange progs (lens sh) := by
    obtain ⟨hsh, m, k, n', _, _, _, hp⟩ := h
    exact hp.inRange hsh
  have fin : ∀ (p : PSt T) (S : List (Msg T)), Relation.ReflTransGen (PStep n none) (PSt.init progs (lens sh)) p → (∀ t ∈ p.data.senders, t = .done) →
      Sent progs (lens sh) p.data S → S.Perm (progs.flatMap (·.msgs)) → ∃ p', Relation.ReflTransGen (PStep n none) (PSt.init progs (lens sh)) p' ∧ p'.Complete n ∧
        ∀ side, p'.data.arr side = accum (List.replicate (lens sh side) 0) (contribs side (lens sh side) S) := by
    intro p S h1 h2 h3 h4
    obtain ⟨p', h5, h6⟩ := C34_finishes_partial a b jac sh progs h n none (by omega) (by simp) p h1
    obtain ⟨h7, h8⟩ := h3.ended hr h5 fun t ht => by rw [h2 t ht]; trivial
    exact ⟨p', h1.trans h5, h6, fun side => h7.complete hr (h1.trans h5) h6 (by rw [h8]; exact h2) h4 side⟩
  obtain ⟨p0, a1, a2, a3⟩ := order_reach hr hf (show 1 ≤ n by omega)
  obtain ⟨q0, b1, b2, b3⟩ := delay_reach hr hf hn hi
  obtain ⟨p, a4, a5, a6⟩ := fin p0 _ a1 a2 a3 (List.Perm.refl _)
  obtain ⟨q, b4, b5, b6⟩ := fin q0 _ b1 b2 b3 (by
    have h1 : ((progs.eraseIdx i) ++ [progs[i]]).Perm progs :=
      List.perm_append_comm.trans (by simpa using List.getElem_cons_eraseIdx_perm hi)
    simpa [List.flatMap_append] using h1.flatMap_right (fun pr : Prog T => pr.msgs))
  exact ⟨p, q, a4, a5, b4, b5, fun side => ⟨a6 side, b6 side⟩⟩

/-- the task `(i, kk, j)` of a product of matrices -/
def jvpProg [Mul T] (m k n rows : Nat) (A B G : Nat → Nat → T) (x : Nat × Nat × Nat) : Prog T :=
  ⟨(List.range rows).flatMap fun r =>
      [{ right := false, globalIdx := r * (m * k) + (x.1 * k + x.2.1), val := G r (x.1 * n + x.2.2) * B x.2.1 x.2.2 },
       { right := true, globalIdx := r * (k * n) + (x.2.1 * n + x.2.2), val := G r (x.1 * n + x.2.2) * A x.1 x.2.1 }], false⟩

theorem mem_taskIndices {m k n : Nat} {x : Nat × Nat × Nat} : x ∈ taskIndices m k n ↔ x.1 < m ∧ x.2.1 < k ∧ x.2.2 < n := by
  obtain ⟨i, kk, j⟩ := x
  simp [taskIndices]

theorem jvp_scope [Mul T] {a b jac : Raw T} {m k n rows : Nat} {A B G : Nat → Nat → T} (ha : IsMat a m k A) (hb : IsMat b k n B)
    (hj : IsMat jac rows (m * n) G) (sh : BmmJvpShapes) (progs : List (Prog T)) : IsScope a b jac sh progs ↔
      sh = ⟨[m, n], [m * n, m * k], [rows, m * k], [rows, k * n]⟩ ∧ progs = (taskIndices m k n).map (jvpProg m k n rows A B G) := by
  have hsh : bmmJvpShapes a b jac = .ok ⟨[m, n], [m * n, m * k], [rows, m * k], [rows, k * n]⟩ := by
    simp [bmmJvpShapes, ha.1, hb.1, hj.1, idxR]
  have hp : ∀ x ∈ taskIndices m k n, ∀ p, IsProg a b jac ⟨[m, n], [m * n, m * k], [rows, m * k], [rows, k * n]⟩ x.1 x.2.1 x.2.2 p ↔
      p = jvpProg m k n rows A B G x := by
    intro x hx p
    obtain ⟨h1, h2, h3⟩ := mem_taskIndices.1 hx
    rw [IsProg, bmmJvpTask_ok ha hb hj h1 h2 h3]
    rfl
  constructor
  · rintro ⟨h1, m', k', n', h2, h3, h4, h5⟩
    rw [hsh] at h1
    cases h1
    simp only [ha.1, hb.1, List.getElem?_cons_zero, List.getElem?_cons_succ, Option.some.injEq] at h2 h3 h4
    subst h2; subst h3; subst h4
    refine ⟨rfl, ?_⟩
    have : List.Forall₂ (fun x p => p = jvpProg m k n rows A B G x) (taskIndices m k n) progs := by
      refine List.Forall₂.imp (fun x p h => h) ?_
      refine List.forall₂_iff_get.2 ⟨h5.length_eq, fun i h6 h7 => (hp _ (List.getElem_mem _) _).1 (h5.get h6 h7)⟩
    rw [← List.forall₂_eq_eq_eq, List.forall₂_map_right_iff]
    exact List.forall₂_iff_get.2 ⟨this.length_eq.symm, fun i h6 h7 => this.get h7 h6⟩
  · rintro ⟨rfl, rfl⟩
    refine ⟨hsh, m, k, n, by simp [ha.1], by simp [ha.1], by simp [hb.1], ?_⟩
    rw [AreProgs, List.forall₂_map_right_iff, List.forall₂_same]
    exact fun x hx => (hp x hx _).2 rfl

theorem jvp_msgs [Mul T] (m k n rows : Nat) (A B G : Nat → Nat → T) :
    ((taskIndices m k n).map (jvpProg m k n rows A B G)).flatMap (·.msgs) = jvpMsgs m k n rows A B G := by
  simp only [taskIndices, List.flatMap_map, List.flatMap_assoc, jvpMsgs, jvpProg]

theorem contribs_append (side : Bool) (len : Nat) (S S' : List (Msg T)) : contribs side len (S ++ S') = contribs side len S ++ contribs side len S' := by
  simp [contribs]

/-- what is in a cell after messages were added in the order `S` -/
theorem accum_cell [Zero T] [Add T] {len : Bool → Nat} {S : List (Msg T)} (hS : ∀ x ∈ S, x.globalIdx < len x.right) {side : Bool} {g : Nat}
    (hg : g < len side) : (accum (List.replicate (len side) 0) (contribs side (len side) S))[segPos (len side) g]? =
      some (((S.filter fun m => m.right == side && m.globalIdx == g).map (·.val)).foldl (· + ·) 0) := by
  rw [accum_getElem?, List.getElem?_replicate, if_pos (segPos_lt hg), contribs, List.filter_map, List.filter_filter]
  have hfe : S.filter (fun x => ((fun c : Nat × T => decide (c.1 = segPos (len side) g)) ∘
        fun m : Msg T => (segPos (len side) m.globalIdx, m.val)) x && (x.right == side)) =
      S.filter fun m => m.right == side && m.globalIdx == g := by
    refine List.filter_congr fun x hx => ?_
    by_cases hsd : x.right = side
    · have := hS x hx
      rw [hsd] at this
      by_cases hg' : x.globalIdx = g
      · simp [hsd, hg']
      · have : segPos (len side) x.globalIdx ≠ segPos (len side) g := fun e => hg' (segPos_inj this hg e)
        simp [hsd, hg', this]
    · have : (x.right == side) = false := by simpa using hsd
      simp [this]
  rw [hfe]
  simp [List.foldl_map]

/-- every position belongs to a cell -/
theorem segPos_surj {len x : Nat} (hx : x < len) : ∃ g < len, segPos len g = x := by
  have hinj : Function.Injective fun g : Fin len => (⟨segPos len g.1, segPos_lt g.2⟩ : Fin len) := by
    intro g g' h
    exact Fin.ext (segPos_inj g.2 g'.2 (by simpa using h))
  obtain ⟨g, hg⟩ := (Finite.injective_iff_surjective.1 hinj) ⟨x, hx⟩
  exact ⟨g.1, g.2, by simpa using hg⟩

/-- sums of at most two numbers do not depend on the order -/
theorem foldl_two [Zero T] [Add T] (hcomm : ∀ x y : T, x + y = y + x) (hzero : ∀ x : T, 0 + x = x) {l l' : List (Nat × T)} (h : l.Perm l')
    (hl : l.length ≤ 2) : l.foldl (fun a c => a + c.2) 0 = l'.foldl (fun a c => a + c.2) 0 := by
  match l, hl, h with
  | [], _, h => rw [h.nil_eq]
  | [x], _, h => rw [List.singleton_perm.1 h]
  | [x, y], _, h =>
    match l', h.length_eq, h with
    | [u, v], _, h =>
      simp only [List.foldl_cons, List.foldl_nil, hzero]
      rcases List.mem_cons.1 (h.mem_iff.1 (by simp : x ∈ [x, y])) with rfl | hx
      · have := List.singleton_perm.1 ((List.perm_cons x).1 h)
        simp at this
        rw [this]
      · simp at hx
        subst hx
        have := List.singleton_perm.1 ((List.perm_cons x).1 (h.trans (List.Perm.swap _ _ _)))
        simp at this
        rw [this, hcomm]

/-- the first task adds one number to the first cell of each array -/
theorem first_left [Mul T] {m k n rows : Nat} {A B G : Nat → Nat → T} (hr : 0 < rows) (hm : 0 < m) (hk : 0 < k) :
    (contribs false (rows * (m * k)) (jvpProg m k n rows A B G (0, 0, 0)).msgs).filter (fun c => c.1 = segPos (rows * (m * k)) 0) =
      [(segPos (rows * (m * k)) 0, G 0 0 * B 0 0)] := by
  unfold contribs jvpProg
  simp only [List.filter_flatMap, List.map_flatMap]
  rw [flatMap_single hr]
  · simp
  · intro r' hr' hne
    simp only [List.filter_cons, List.filter_nil]
    simp
    intro h
    have h1 : 0 < m * k := Nat.mul_pos hm hk
    have := segPos_inj (Nat.mul_lt_mul_of_pos_right hr' h1) (Nat.mul_pos hr h1) h
    rcases Nat.mul_eq_zero.1 this with h2 | h2
    · exact hne h2
    · omega

theorem first_right [Mul T] {m k n rows : Nat} {A B G : Nat → Nat → T} (hr : 0 < rows) (hk : 0 < k) (hn : 0 < n) :
    (contribs true (rows * (k * n)) (jvpProg m k n rows A B G (0, 0, 0)).msgs).filter (fun c => c.1 = segPos (rows * (k * n)) 0) =
      [(segPos (rows * (k * n)) 0, G 0 0 * A 0 0)] := by
  unfold contribs jvpProg
  simp only [List.filter_flatMap, List.map_flatMap]
  rw [flatMap_single hr]
  · simp
  · intro r' hr' hne
    simp only [List.filter_cons, List.filter_nil]
    simp
    intro h
    have h1 : 0 < k * n := Nat.mul_pos hk hn
    have := segPos_inj (Nat.mul_lt_mul_of_pos_right hr' h1) (Nat.mul_pos hr h1) h
    rcases Nat.mul_eq_zero.1 this with h2 | h2
    · exact hne h2
    · omega

theorem taskIndices_pos {m k n : Nat} (hm : 0 < m) (hk : 0 < k) (hn : 0 < n) : ∃ rest, taskIndices m k n = (0, 0, 0) :: rest := by
  obtain ⟨m, rfl⟩ : ∃ x, m = x + 1 := ⟨m - 1, by omega⟩
  obtain ⟨k, rfl⟩ : ∃ x, k = x + 1 := ⟨k - 1, by omega⟩
  obtain ⟨n, rfl⟩ : ∃ x, n = x + 1 := ⟨n - 1, by omega⟩
  simp only [taskIndices, List.range_succ_eq_map, List.flatMap_cons, List.map_cons, List.cons_append]
  exact ⟨_, rfl⟩

end RL
