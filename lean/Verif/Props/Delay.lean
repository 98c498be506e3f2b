import Verif.Props.Reproduce
import Verif.Lemmas.DelayRuns

/-!
# Exactly when the gradients of a matrix product are reproducible (C58)
-/

namespace RL

open Spec SplitWriter

variable {T : Type}

/-- C58, two runs that a pool with at least two workers can have on any input whatever, if no task panics: one in which the contributions
to every cell are added in the order in which the tasks are spawned, and, for every task, one in which those of this task come last. So the
gradients are not reproducible unless these sums agree. -/
theorem C58_late [Zero T] [Add T] [Mul T] (a b jac : Raw T) (sh : BmmJvpShapes) (progs : List (Prog T)) (h : IsScope a b jac sh progs)
    (hf : ∀ pr ∈ progs, pr.fails = false) (n : Nat) (hn : 2 ≤ n) (i : Nat) (hi : i < progs.length) :
    ∃ p q : PSt T, Relation.ReflTransGen (PStep n none) (PSt.init progs (lens sh)) p ∧ p.Complete n ∧
      Relation.ReflTransGen (PStep n none) (PSt.init progs (lens sh)) q ∧ q.Complete n ∧
      ∀ side, ∀ g < lens sh side,
        (p.data.arr side)[lens sh side - min (32 * (g / 32 + 1)) (lens sh side) + g % 32]? =
          some ((((progs.flatMap (·.msgs)).filter fun m => m.right == side && m.globalIdx == g).map (·.val)).foldl (· + ·) 0) ∧
        (q.data.arr side)[lens sh side - min (32 * (g / 32 + 1)) (lens sh side) + g % 32]? =
          some (((((progs.eraseIdx i).flatMap (·.msgs) ++ progs[i].msgs).filter fun m => m.right == side && m.globalIdx == g).map (·.val)).foldl
            (· + ·) 0) := by
  obtain ⟨p, q, h1, h2, h3, h4, h5⟩ := late_runs h hf hn hi
  have hr : InRange progs (lens sh) := by
    obtain ⟨hsh, m, k, n', _, _, _, hp⟩ := h
    exact hp.inRange hsh
  have hall : ∀ x ∈ progs.flatMap (·.msgs), x.globalIdx < lens sh x.right := by
    intro x hx
    obtain ⟨pr, hpr, hx⟩ := List.mem_flatMap.1 hx
    exact hr pr hpr x hx
  refine ⟨p, q, h1, h2, h3, h4, fun side g hg => ⟨?_, ?_⟩⟩
  · rw [(h5 side).1]
    exact accum_cell hall hg
  · rw [(h5 side).2]
    refine accum_cell (fun x hx => ?_) hg
    rcases List.mem_append.1 hx with hx | hx
    · obtain ⟨pr, hpr, hx⟩ := List.mem_flatMap.1 hx
      exact hr pr (List.mem_of_mem_eraseIdx hpr) x hx
    · exact hr _ (List.getElem_mem hi) x hx

/-- (helper) if one of the conditions of `C58_exact` holds, two runs on matrices give the same arrays -/
theorem jvp_agree [Zero T] [Add T] [Mul T] (hcomm : ∀ x y : T, x + y = y + x) (hzero : ∀ x : T, 0 + x = x) (W m k n rows : Nat)
    (hW : W = 1 ∨ m * k * n * rows = 0 ∨ (m ≤ 2 ∧ n ≤ 2)) (a b jac : Raw T) (ha : WF a) (hb : WF b) (hj : WF jac) (sa : a.shape = [m, k])
    (sb : b.shape = [k, n]) (sj : jac.shape = [rows, m * n]) (sh : BmmJvpShapes) (progs : List (Prog T)) (h : IsScope a b jac sh progs) (p q : PSt T)
    (hp : Relation.ReflTransGen (PStep W none) (PSt.init progs (lens sh)) p) (hpc : p.Complete W)
    (hq : Relation.ReflTransGen (PStep W none) (PSt.init progs (lens sh)) q) (hqc : q.Complete W) : p.data.arr = q.data.arr := by
  obtain ⟨A, hA⟩ := IsMat.exists ha sa
  obtain ⟨B, hB⟩ := IsMat.exists hb sb
  obtain ⟨G, hG⟩ := IsMat.exists hj sj
  obtain ⟨rfl, rfl⟩ := (jvp_scope hA hB hG sh progs).1 h
  set sh : BmmJvpShapes := ⟨[m, n], [m * n, m * k], [rows, m * k], [rows, k * n]⟩ with hsh
  set progs := (taskIndices m k n).map (jvpProg m k n rows A B G) with hprogs
  have hf : ∀ pr ∈ progs, pr.fails = false := by
    intro pr hpr
    obtain ⟨x, _, rfl⟩ := List.mem_map.1 hpr
    rfl
  have hr : InRange progs (lens sh) := by
    obtain ⟨h0, m, k, n', _, _, _, hp⟩ := h
    exact hp.inRange h0
  have key : ∀ p : PSt T, Relation.ReflTransGen (PStep W none) (PSt.init progs (lens sh)) p → p.Complete W → Sender.failed ∉ p.data.senders ∧
      ∃ w : List (Msg T), w.Perm (jvpMsgs m k n rows A B G) ∧
        ∀ side, p.data.arr side = accum (List.replicate (lens sh side) 0) (contribs side (lens sh side) w) := by
    intro p hp hpc
    obtain ⟨w, q, hi⟩ := h.inv (PReach.data hp)
    obtain ⟨rfl, h1, h2⟩ := hi.complete ((PReach.pinv (by simp) hp).complete hi hpc)
    have h3 : Sender.failed ∉ p.data.senders := by
      intro h4
      obtain ⟨pr, h5, h6⟩ := h1.1 h4
      rw [hf pr h5] at h6
      cases h6
    refine ⟨h3, w, ?_, hi.arr⟩
    rw [← jvp_msgs]
    exact h2 h3
  obtain ⟨fp, w, hw, ep⟩ := key p hp hpc
  obtain ⟨fq, w', hw', eq⟩ := key q hq hqc
  rcases hW with rfl | h0 | ⟨hm, hn⟩
  · funext side
    rw [one_complete hr hp hpc fp, one_complete hr hq hqc fq]
  · have hnil : jvpMsgs m k n rows A B G = [] := by
      rw [List.eq_nil_iff_forall_not_mem]
      intro x hx
      simp only [jvpMsgs, List.mem_flatMap, List.mem_range] at hx
      obtain ⟨i, hi, kk, hk, j, hj, r, hr, _⟩ := hx
      have : 0 < m * k * n * rows := Nat.mul_pos (Nat.mul_pos (Nat.mul_pos (by omega) (by omega)) (by omega)) (by omega)
      omega
    rw [hnil] at hw hw'
    funext side
    rw [ep, eq, hw.eq_nil, hw'.eq_nil]
  · funext side
    rw [ep, eq]
    apply List.ext_getElem?
    intro x
    rw [accum_getElem?, accum_getElem?]
    by_cases hx : x < lens sh side
    · rw [List.getElem?_replicate, if_pos hx]
      simp only [Option.map_some]
      congr 1
      have hww := (contribs_perm (right := side) (len := lens sh side) hw).filter (fun c => decide (c.1 = x))
      have hww' := (contribs_perm (right := side) (len := lens sh side) hw').filter (fun c => decide (c.1 = x))
      refine foldl_two hcomm hzero (hww.trans hww'.symm) ?_
      rw [hww.length_eq]
      obtain ⟨g, hg, rfl⟩ := segPos_surj hx
      cases side with
      | false =>
        have hl : lens sh false = rows * (m * k) := by simp [lens, hsh]
        rw [hl] at hg ⊢
        have hmk : 0 < m * k := Nat.pos_of_ne_zero fun h => by rw [h] at hg; omega
        have hk : 0 < k := Nat.pos_of_ne_zero fun h => by rw [h] at hmk; omega
        have e : g = g / (m * k) * (m * k) + (g % (m * k) / k * k + g % (m * k) % k) := by
          rw [Nat.div_add_mod' (g % (m * k)) k, Nat.div_add_mod']
        rw [e, contribs_left_cell (Nat.div_lt_of_lt_mul (by rwa [Nat.mul_comm])) (Nat.div_lt_of_lt_mul (by rw [Nat.mul_comm k m]; exact Nat.mod_lt _ hmk))
          (Nat.mod_lt _ hk)]
        simpa using hn
      | true =>
        have hl : lens sh true = rows * (k * n) := by simp [lens, hsh]
        rw [hl] at hg ⊢
        have hkn : 0 < k * n := Nat.pos_of_ne_zero fun h => by rw [h] at hg; omega
        have hn0 : 0 < n := Nat.pos_of_ne_zero fun h => by rw [h] at hkn; omega
        have e : g = g / (k * n) * (k * n) + (g % (k * n) / n * n + g % (k * n) % n) := by
          rw [Nat.div_add_mod' (g % (k * n)) n, Nat.div_add_mod']
        rw [e, contribs_right_cell (Nat.div_lt_of_lt_mul (by rwa [Nat.mul_comm])) (Nat.div_lt_of_lt_mul (by rw [Nat.mul_comm n k]; exact Nat.mod_lt _ hkn))
          (Nat.mod_lt _ hn0)]
        simpa using hm
    · rw [List.getElem?_replicate, if_neg hx]
      rfl

namespace DelayTest

open ReproduceTest

/-- adding zeros changes nothing -/
theorem foldl_zeros (l : List (Nat × Sat)) (hl : ∀ c ∈ l, c.2 = 0) (x : Sat) : l.foldl (fun a c => a + c.2) x = x := by
  induction l generalizing x with
  | nil => rfl
  | cons c l ih =>
    rw [List.foldl_cons, hl c (by simp), ReproduceTest.add_comm, ReproduceTest.zero_add]
    exact ih (fun c hc => hl c (List.mem_cons_of_mem _ hc)) x

/-- `-10 + 10 + 10` in two orders -/
theorem foldl_order {N x : Nat} (hN : 3 ≤ N) {u : Nat → Sat} (h0 : u 0 = ⟨-10⟩) (h1 : u 1 = ⟨10⟩) (h2 : u 2 = ⟨10⟩) (h3 : ∀ t, 3 ≤ t → u t = 0)
    {rest : List (Nat × Sat)} (h : [(x, u 0)] ++ rest = (List.range N).map fun t => (x, u t)) :
    ([(x, u 0)] ++ rest).foldl (fun a c => a + c.2) 0 ≠ (rest ++ [(x, u 0)]).foldl (fun a c => a + c.2) 0 := by
  obtain ⟨K, rfl⟩ : ∃ K, N = K + 3 := ⟨N - 3, by omega⟩
  have hr : rest = (x, u 1) :: (x, u 2) :: (List.range K).map fun t => (x, u (t + 3)) := by
    simp [List.range_succ_eq_map, Function.comp_def] at h
    exact h
  have hz : ∀ c ∈ (List.range K).map fun t => (x, u (t + 3)), c.2 = 0 := by
    intro c hc
    obtain ⟨t, _, rfl⟩ := List.mem_map.1 hc
    exact h3 _ (by omega)
  rw [hr]
  simp only [List.singleton_append, List.cons_append, List.foldl_cons, List.foldl_append, List.foldl_nil, foldl_zeros _ hz, h0, h1, h2]
  decide

/-- a matrix of ones -/
theorem isMat_ones (m n : Nat) : IsMat (⟨List.replicate (m * n) ⟨1⟩, [m, n]⟩ : Raw Sat) m n fun _ _ => ⟨1⟩ := by
  refine ⟨rfl, by simp [WF], fun i hi j hj => ?_⟩
  rw [List.getElem?_replicate, if_pos (mul_add_lt hi hj)]

/-- a matrix whose rows are all the same -/
theorem isMat_rows (r c : Nat) (g : Nat → Sat) :
    IsMat (⟨(List.range (r * c)).map fun t => g (t % c), [r, c]⟩ : Raw Sat) r c fun _ t => g t := by
  refine ⟨rfl, by simp [WF], fun i hi j hj => ?_⟩
  rw [List.getElem?_map, List.getElem?_range (mul_add_lt hi hj)]
  simp [Nat.mod_eq_of_lt hj]

end DelayTest

/-- C58, exactly: a pool with `W` workers gives the same gradients on every run, for all matrices of these sizes and all elements whose
addition is commutative and has the neutral element zero, if and only if the pool has one worker, or nothing is added at all, or both the
number of rows of the left matrix and the number of columns of the right one are at most two. -/
theorem C58_exact (W : Nat) (hW : 1 ≤ W) (m k n rows : Nat) :
    (∀ (T : Type) [Zero T] [Add T] [Mul T], (∀ x y : T, x + y = y + x) → (∀ x : T, 0 + x = x) →
      ∀ a b jac : Raw T, WF a → WF b → WF jac → a.shape = [m, k] → b.shape = [k, n] → jac.shape = [rows, m * n] →
      ∀ (sh : BmmJvpShapes) (progs : List (Prog T)), IsScope a b jac sh progs →
      ∀ p q : PSt T, Relation.ReflTransGen (PStep W none) (PSt.init progs (lens sh)) p → p.Complete W →
        Relation.ReflTransGen (PStep W none) (PSt.init progs (lens sh)) q → q.Complete W → p.data.arr = q.data.arr) ↔
      W = 1 ∨ m * k * n * rows = 0 ∨ (m ≤ 2 ∧ n ≤ 2) := by
  constructor
  · intro h
    by_contra hne
    simp only [not_or] at hne
    obtain ⟨hW1, h0, hmn⟩ := hne
    have hm : 0 < m := Nat.pos_of_ne_zero fun e => h0 (by simp [e])
    have hk : 0 < k := Nat.pos_of_ne_zero fun e => h0 (by simp [e])
    have hn : 0 < n := Nat.pos_of_ne_zero fun e => h0 (by simp [e])
    have hr : 0 < rows := Nat.pos_of_ne_zero fun e => h0 (by simp [e])
    -- what both runs add to a cell
    have key : ∀ (g : Nat → ReproduceTest.Sat) (side : Bool) (x N : Nat) (u : Nat → ReproduceTest.Sat), 3 ≤ N → u 0 = ⟨-10⟩ → u 1 = ⟨10⟩ → u 2 = ⟨10⟩ →
        (∀ t, 3 ≤ t → u t = 0) → x < lens ⟨[m, n], [m * n, m * k], [rows, m * k], [rows, k * n]⟩ side →
        (contribs side (lens ⟨[m, n], [m * n, m * k], [rows, m * k], [rows, k * n]⟩ side)
          (jvpProg m k n rows (fun _ _ => ⟨1⟩) (fun _ _ => ⟨1⟩) (fun _ t => g t) (0, 0, 0)).msgs).filter (fun c => c.1 = x) = [(x, u 0)] →
        (contribs side (lens ⟨[m, n], [m * n, m * k], [rows, m * k], [rows, k * n]⟩ side)
          (jvpMsgs m k n rows (fun _ _ => ⟨1⟩) (fun _ _ => ⟨1⟩) fun _ t => g t)).filter (fun c => c.1 = x) =
          (List.range N).map (fun t => (x, u t)) → False := by
      intro g side x N u hN u0 u1 u2 u3 hx h1 h2
      have hA := DelayTest.isMat_ones m k
      have hB := DelayTest.isMat_ones k n
      have hG := DelayTest.isMat_rows rows (m * n) g
      have hs := (jvp_scope hA hB hG _ _).2 ⟨rfl, rfl⟩
      obtain ⟨l, hl⟩ := taskIndices_pos hm hk hn
      have hf : ∀ pr ∈ (taskIndices m k n).map (jvpProg m k n rows (fun _ _ => (⟨1⟩ : ReproduceTest.Sat)) (fun _ _ => ⟨1⟩) fun _ t => g t),
          pr.fails = false := by
        intro pr hpr
        obtain ⟨x, _, rfl⟩ := List.mem_map.1 hpr
        rfl
      obtain ⟨p, q, p1, p2, q1, q2, hpq⟩ := late_runs hs hf (show 2 ≤ W by omega) (i := 0) (by rw [hl]; simp)
      have he := h ReproduceTest.Sat ReproduceTest.add_comm ReproduceTest.zero_add _ _ _ hA.2.1 hB.2.1 hG.2.1 hA.1 hB.1 hG.1 _ _ hs p q p1 p2 q1 q2
      have hc := congrArg (fun l => l[x]?) (((hpq side).1.symm.trans (congrFun he side)).trans (hpq side).2)
      simp only [accum_getElem?, List.getElem?_replicate, if_pos hx, Option.map_some, Option.some.injEq] at hc
      rw [← jvp_msgs] at h2
      simp only [hl, List.map_cons, List.flatMap_cons, List.eraseIdx_cons_zero, List.getElem_cons_zero, contribs_append, List.filter_append, h1] at hc h2
      exact DelayTest.foldl_order hN u0 u1 u2 u3 h2 hc
    rcases Nat.lt_or_ge 2 n with hn3 | hn3
    · refine key (fun c => if c = 0 then ⟨-10⟩ else if c = 1 ∨ c = 2 then ⟨10⟩ else 0) false (segPos (rows * (m * k)) 0) n
        (fun c => (if c = 0 then ⟨-10⟩ else if c = 1 ∨ c = 2 then ⟨10⟩ else 0) * ⟨1⟩) hn3 rfl rfl rfl ?_ ?_ ?_ ?_
      · intro t ht
        rw [if_neg (by omega), if_neg (by omega)]
        rfl
      · have : 0 < rows * (m * k) := Nat.mul_pos hr (Nat.mul_pos hm hk)
        simpa [lens] using segPos_lt this
      · have := first_left (n := n) (A := fun _ _ => (⟨1⟩ : ReproduceTest.Sat)) (B := fun _ _ => ⟨1⟩)
          (G := fun _ c => if c = 0 then ⟨-10⟩ else if c = 1 ∨ c = 2 then ⟨10⟩ else 0) hr hm hk
        simpa [lens] using this
      · have := contribs_left_cell (n := n) (A := fun _ _ => (⟨1⟩ : ReproduceTest.Sat)) (B := fun _ _ => ⟨1⟩)
          (G := fun _ c => if c = 0 then ⟨-10⟩ else if c = 1 ∨ c = 2 then ⟨10⟩ else 0) hr hm hk
        simpa [lens] using this
    · have hm3 : 3 ≤ m := by omega
      have e0 : ∀ t, t * n = 0 ↔ t = 0 := fun t => by simp; omega
      have e1 : ∀ t, t * n = n ↔ t = 1 := fun t => by
        conv_lhs => rhs; rw [← Nat.one_mul n]
        exact Nat.mul_left_inj (by omega)
      have e2 : ∀ t, t * n = 2 * n ↔ t = 2 := fun t => Nat.mul_left_inj (by omega)
      refine key (fun c => if c = 0 then ⟨-10⟩ else if c = n ∨ c = 2 * n then ⟨10⟩ else 0) true (segPos (rows * (k * n)) 0) m
        (fun t => (if t = 0 then ⟨-10⟩ else if t = 1 ∨ t = 2 then ⟨10⟩ else 0) * ⟨1⟩) hm3 rfl rfl rfl ?_ ?_ ?_ ?_
      · intro t ht
        rw [if_neg (by omega), if_neg (by omega)]
        rfl
      · have : 0 < rows * (k * n) := Nat.mul_pos hr (Nat.mul_pos hk hn)
        simpa [lens] using segPos_lt this
      · have := first_right (m := m) (A := fun _ _ => (⟨1⟩ : ReproduceTest.Sat)) (B := fun _ _ => ⟨1⟩)
          (G := fun _ c => if c = 0 then ⟨-10⟩ else if c = n ∨ c = 2 * n then ⟨10⟩ else 0) hr hk hn
        simpa [lens] using this
      · have := contribs_right_cell (m := m) (A := fun _ _ => (⟨1⟩ : ReproduceTest.Sat)) (B := fun _ _ => ⟨1⟩)
          (G := fun _ c => if c = 0 then ⟨-10⟩ else if c = n ∨ c = 2 * n then ⟨10⟩ else 0) hr hk hn
        simp only [Nat.zero_mul, Nat.zero_add, Nat.add_zero, e0, e1, e2] at this
        simpa [lens] using this
  · intro hc T _ _ _ hcomm hzero a b jac ha hb hj sa sb sj sh progs hs p q hp hpc hq hqc
    exact jvp_agree hcomm hzero W m k n rows hc a b jac ha hb hj sa sb sj sh progs hs p q hp hpc hq hqc

/-- C58, test: the matrices of `C58_false`, with two workers; the first task can come last -/
example : ∃ p q : PSt ReproduceTest.Sat,
    Relation.ReflTransGen (PStep 2 none) (PSt.init ReproduceTest.progs (lens ReproduceTest.shapes)) p ∧ p.Complete 2 ∧
      Relation.ReflTransGen (PStep 2 none) (PSt.init ReproduceTest.progs (lens ReproduceTest.shapes)) q ∧ q.Complete 2 ∧
      (p.data.arr false)[0]? = some ⟨0⟩ ∧ (q.data.arr false)[0]? = some ⟨10⟩ := by
  obtain ⟨p, q, h1, h2, h3, h4, h5⟩ := C58_late _ _ _ _ _ ReproduceTest.scope (by decide) 2 (by decide) 0 (by decide)
  exact ⟨p, q, h1, h2, h3, h4, ((h5 false 0 (by decide)).1).trans (by decide), ((h5 false 0 (by decide)).2).trans (by decide)⟩

/-- C58, tests: 2 x 1 times 1 x 2 is reproducible on any pool, 1 x 1 times 1 x 3 on a pool with one worker only -/
example : (1 = 1 ∨ 1 * 1 * 3 * 1 = 0 ∨ (1 ≤ 2 ∧ 3 ≤ 2)) ∧ ¬(2 = 1 ∨ 1 * 1 * 3 * 1 = 0 ∨ (1 ≤ 2 ∧ 3 ≤ 2)) ∧
    (8 = 1 ∨ 2 * 1 * 2 * 5 = 0 ∨ (2 ≤ 2 ∧ 2 ≤ 2)) := by decide

end RL
