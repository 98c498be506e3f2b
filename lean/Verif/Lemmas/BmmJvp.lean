import Verif.Lemmas.Jvp

/-!
# Lemmas about `bmm_jvp` and `SplitArrayWriter`
-/

namespace RL

open Spec

variable {T : Type}

theorem segWidth_eq : segWidth = 32 := rfl

theorem rchunks_getElem? (s len : Nat) :
    (rchunks len)[s]? = if 32 * s < len then some (len - min (32 * (s + 1)) len, min 32 (len - 32 * s)) else none := by
  induction s generalizing len with
  | zero =>
    rw [rchunks]
    by_cases h : len = 0
    · simp [h]
    · simp only [h, dite_false, segWidth_eq]
      simp; omega
  | succ s ih =>
    rw [rchunks]
    by_cases h : len = 0
    · simp [h]
    · simp only [h, dite_false, segWidth_eq, List.getElem?_cons_succ, ih]
      by_cases h1 : 32 * (s + 1) < len
      · rw [if_pos (by omega), if_pos h1]
        simp only [Option.some.injEq, Prod.mk.injEq]
        omega
      · rw [if_neg (by omega), if_neg h1]

theorem rchunks_length_iff (s len : Nat) : s < (rchunks len).length ↔ 32 * s < len := by
  have := rchunks_getElem? s len
  constructor
  · intro h
    by_contra hc
    rw [if_neg hc, List.getElem?_eq_none_iff] at this
    omega
  · intro h
    rw [if_pos h] at this
    exact (List.getElem?_eq_some_iff.1 this).1

/-- where the message for flat index `i` of an array of length `len` ends up: the segments are cut from the end of
the array but numbered from its start -/
def segPos (len i : Nat) : Nat := len - min (32 * (i / 32 + 1)) len + i % 32

theorem segPos_lt {len i : Nat} (h : i < len) : segPos len i < len := by
  unfold segPos; omega

theorem segPos_inj {len i j : Nat} (hi : i < len) (hj : j < len) (h : segPos len i = segPos len j) : i = j := by
  unfold segPos at h; omega

theorem segPos_small {len i : Nat} (hl : len ≤ 32) (hi : i < len) : segPos len i = i := by
  unfold segPos; omega

theorem shiftRight_bitWidth (i : Nat) : i >>> bitWidth = i / 32 := by
  rw [Nat.shiftRight_eq_div_pow]; rfl

theorem senderOf_ok {len i : Nat} (h : i < len) : senderOf len i = .ok (i / 32) := by
  unfold senderOf
  simp only [shiftRight_bitWidth]
  rw [if_pos ((rchunks_length_iff _ _).2 (by omega))]
  rfl

/-- the write always passes the assertion and hits position `segPos` -/
theorem segmentWrite_ok [Add T] {arr : List T} {i : Nat} (h : i < arr.length) (v : T) :
    segmentWrite arr (i / 32) i v = .ok (arr.modify (segPos arr.length i) (fun x => x + v)) := by
  unfold segmentWrite
  have h1 : idxR (rchunks arr.length) (i / 32) = .ok (arr.length - min (32 * (i / 32 + 1)) arr.length,
      min 32 (arr.length - 32 * (i / 32))) := by
    rw [idxR_eq_ok, rchunks_getElem?, if_pos (by omega)]
  rw [h1]
  have h3 : subR i (i / 32 * segWidth) = .ok (i - i / 32 * 32) := by
    rw [segWidth_eq, subR, if_pos (by omega)]
  simp only [R.bind_ok, h3]
  rw [assertR_of (by simp; omega)]
  simp only [R.bind_ok]
  have h2 : arr.length - min (32 * (i / 32 + 1)) arr.length + (i - i / 32 * 32) = segPos arr.length i := by
    unfold segPos; omega
  rw [h2]
  exact addAt_ok (segPos_lt h) v

/-- the contributions of a list of messages to one of the two arrays of length `len` -/
def contribs (right : Bool) (len : Nat) (msgs : List (Msg T)) : List (Nat × T) :=
  (msgs.filter (fun m => m.right == right)).map (fun m => (segPos len m.globalIdx, m.val))

theorem deliver_ok [Add T] (arrays : List T × List T) (m : Msg T)
    (h : m.globalIdx < if m.right then arrays.2.length else arrays.1.length) :
    deliver arrays m = .ok (accum arrays.1 (contribs false arrays.1.length [m]),
      accum arrays.2 (contribs true arrays.2.length [m])) := by
  unfold deliver
  cases hr : m.right with
  | true =>
    rw [hr] at h
    simp only [if_true] at h
    simp only [if_true, senderOf_ok h, R.bind_ok, segmentWrite_ok h]
    simp [contribs, hr, accum]
  | false =>
    rw [hr] at h
    simp only [Bool.false_eq_true, if_false] at h
    simp only [Bool.false_eq_true, if_false, senderOf_ok h, R.bind_ok, segmentWrite_ok h]
    simp [contribs, hr, accum]

theorem deliver_all [Add T] (msgs : List (Msg T)) (nl nr : Nat)
    (h : ∀ m ∈ msgs, m.globalIdx < if m.right then nr else nl) :
    ∀ arrays : List T × List T, arrays.1.length = nl → arrays.2.length = nr →
      msgs.foldlM deliver arrays = .ok (accum arrays.1 (contribs false nl msgs), accum arrays.2 (contribs true nr msgs)) := by
  induction msgs with
  | nil => intro arrays _ _; rfl
  | cons m msgs ih =>
    intro arrays h1 h2
    rw [List.foldlM_cons, deliver_ok arrays m (by rw [h1, h2]; exact h m (by simp)), R.bind_ok,
      ih (fun x hx => h x (by simp [hx])) _ (by simp [accum_length, h1]) (by simp [accum_length, h2])]
    simp only [h1, h2, ← accum_append]
    congr 3
    · simp [contribs, List.filter_cons]; split <;> simp
    · simp [contribs, List.filter_cons]; split <;> simp

theorem flatMap_single {β : Type _} {n x : Nat} (hx : x < n) (f : Nat → List β) (h : ∀ y < n, y ≠ x → f y = []) :
    (List.range n).flatMap f = f x := by
  induction n with
  | zero => omega
  | succ n ih =>
    rw [List.range_succ, List.flatMap_append]
    by_cases hxn : x = n
    · subst hxn
      have : (List.range x).flatMap f = [] := by
        rw [List.flatMap_eq_nil_iff]
        intro y hy
        rw [List.mem_range] at hy
        exact h y (by omega) (by omega)
      simp [this]
    · rw [ih (by omega) (fun y hy hne => h y (by omega) hne)]
      simp [h n (by omega) (fun e => hxn e.symm)]

/-- all messages of `bmm_jvp`, in the order of the spawning loops -/
def jvpMsgs [Mul T] (m k n rows : Nat) (A B : Nat → Nat → T) (G : Nat → Nat → T) : List (Msg T) :=
  (List.range m).flatMap fun i => (List.range k).flatMap fun kk => (List.range n).flatMap fun j =>
    (List.range rows).flatMap fun r =>
      [{ right := false, globalIdx := r * (m * k) + (i * k + kk), val := G r (i * n + j) * B kk j },
       { right := true, globalIdx := r * (k * n) + (kk * n + j), val := G r (i * n + j) * A i kk }]

theorem mul_add_lt {a b m n : Nat} (ha : a < m) (hb : b < n) : a * n + b < m * n := by
  have : (a + 1) * n ≤ m * n := Nat.mul_le_mul_right _ ha
  rw [Nat.add_mul] at this
  omega

theorem contribs_left_cell [Mul T] {m k n rows : Nat} {A B G : Nat → Nat → T} {r i kk : Nat} (hr : r < rows) (hi : i < m)
    (hk : kk < k) :
    (contribs false (rows * (m * k)) (jvpMsgs m k n rows A B G)).filter
      (fun c => c.1 = segPos (rows * (m * k)) (r * (m * k) + (i * k + kk)))
    = (List.range n).map fun j => (segPos (rows * (m * k)) (r * (m * k) + (i * k + kk)), G r (i * n + j) * B kk j) := by
  have hlt : ∀ r' < rows, ∀ i' < m, ∀ k' < k, r' * (m * k) + (i' * k + k') < rows * (m * k) :=
    fun r' h1 i' h2 k' h3 => mul_add_lt h1 (mul_add_lt h2 h3)
  have hinj : ∀ r' < rows, ∀ i' < m, ∀ k' < k,
      segPos (rows * (m * k)) (r' * (m * k) + (i' * k + k')) = segPos (rows * (m * k)) (r * (m * k) + (i * k + kk)) →
      r' = r ∧ i' = i ∧ k' = kk := by
    intro r' h1 i' h2 k' h3 h
    have := segPos_inj (hlt r' h1 i' h2 k' h3) (hlt r hr i hi kk hk) h
    rw [cell_inj (mul_add_lt hi hk) (mul_add_lt h2 h3), cell_inj hk h3] at this
    exact this
  unfold contribs jvpMsgs
  simp only [List.filter_flatMap, List.map_flatMap]
  rw [flatMap_single hi]
  · rw [flatMap_single hk]
    · rw [List.map_eq_flatMap]
      congr 1
      funext j
      rw [flatMap_single hr]
      · simp
      · intro r' hr' hne
        simp only [List.filter_cons, List.filter_nil]
        simp
        exact fun h => hne (hinj r' hr' i hi kk hk h).1
    · intro k' hk' hne
      simp only [List.flatMap_eq_nil_iff, List.mem_range]
      intro j hj r' hr'
      simp only [List.filter_cons, List.filter_nil]
      simp
      exact fun h => hne (hinj r' hr' i hi k' hk' h).2.2
  · intro i' hi' hne
    simp only [List.flatMap_eq_nil_iff, List.mem_range]
    intro k' hk' j hj r' hr'
    simp only [List.filter_cons, List.filter_nil]
    simp
    exact fun h => hne (hinj r' hr' i' hi' k' hk' h).2.1

theorem contribs_right_cell [Mul T] {m k n rows : Nat} {A B G : Nat → Nat → T} {r kk j : Nat} (hr : r < rows) (hk : kk < k)
    (hj : j < n) :
    (contribs true (rows * (k * n)) (jvpMsgs m k n rows A B G)).filter
      (fun c => c.1 = segPos (rows * (k * n)) (r * (k * n) + (kk * n + j)))
    = (List.range m).map fun i => (segPos (rows * (k * n)) (r * (k * n) + (kk * n + j)), G r (i * n + j) * A i kk) := by
  have hlt : ∀ r' < rows, ∀ k' < k, ∀ j' < n, r' * (k * n) + (k' * n + j') < rows * (k * n) :=
    fun r' h1 i' h2 k' h3 => mul_add_lt h1 (mul_add_lt h2 h3)
  have hinj : ∀ r' < rows, ∀ k' < k, ∀ j' < n,
      segPos (rows * (k * n)) (r' * (k * n) + (k' * n + j')) = segPos (rows * (k * n)) (r * (k * n) + (kk * n + j)) →
      r' = r ∧ k' = kk ∧ j' = j := by
    intro r' h1 i' h2 k' h3 h
    have := segPos_inj (hlt r' h1 i' h2 k' h3) (hlt r hr kk hk j hj) h
    rw [cell_inj (mul_add_lt hk hj) (mul_add_lt h2 h3), cell_inj hj h3] at this
    exact this
  unfold contribs jvpMsgs
  simp only [List.filter_flatMap, List.map_flatMap]
  rw [List.map_eq_flatMap]
  congr 1
  funext i
  rw [flatMap_single hk]
  · rw [flatMap_single hj]
    · rw [flatMap_single hr]
      · simp
      · intro r' hr' hne
        simp only [List.filter_cons, List.filter_nil]
        simp
        exact fun h => hne (hinj r' hr' kk hk j hj h).1
    · intro j' hj' hne
      simp only [List.flatMap_eq_nil_iff, List.mem_range]
      intro r' hr'
      simp only [List.filter_cons, List.filter_nil]
      simp
      exact fun h => hne (hinj r' hr' kk hk j' hj' h).2.2
  · intro k' hk' hne
    simp only [List.flatMap_eq_nil_iff, List.mem_range]
    intro j' hj' r' hr'
    simp only [List.filter_cons, List.filter_nil]
    simp
    exact fun h => hne (hinj r' hr' k' hk' j' hj' h).2.1

/-- entries of a matrix -/
def IsMat (t : Raw T) (m n : Nat) (A : Nat → Nat → T) : Prop :=
  t.shape = [m, n] ∧ WF t ∧ ∀ i < m, ∀ j < n, t.array[i * n + j]? = some (A i j)

theorem IsMat.at {t : Raw T} {m n : Nat} {A : Nat → Nat → T} (h : IsMat t m n A) {i j : Nat} (hi : i < m) (hj : j < n) :
    t.at [i, j] = .ok (A i j) := by
  rw [Raw.at, Raw.get_inRange (by rw [h.1]; exact inRange2.2 ⟨hi, hj⟩), h.1]
  have : rowMajor [m, n] [i, j] = i * n + j := by simp [rowMajor]
  rw [this, idxR_eq_ok.2 (h.2.2 i hi j hj)]; rfl

theorem IsMat.exists [Zero T] {t : Raw T} {m n : Nat} (ht : WF t) (hs : t.shape = [m, n]) : ∃ A, IsMat t m n A := by
  refine ⟨fun i j => t.array.getD (i * n + j) 0, hs, ht, fun i hi j hj => ?_⟩
  have : i * n + j < t.array.length := by
    rw [ht, hs]; simpa using mul_add_lt hi hj
  simp [this]

theorem bmmJvpTask_ok [Mul T] {a b jac : Raw T} {m k n rows : Nat} {A B G : Nat → Nat → T} (ha : IsMat a m k A)
    (hb : IsMat b k n B) (hj : IsMat jac rows (m * n) G) {i kk j : Nat} (hi : i < m) (hk : kk < k) (hjn : j < n) :
    bmmJvpTask a b jac ⟨[m, n], [m * n, m * k], [rows, m * k], [rows, k * n]⟩ i kk j = .ok
      ((List.range rows).flatMap fun r =>
      [{ right := false, globalIdx := r * (m * k) + (i * k + kk), val := G r (i * n + j) * B kk j },
       { right := true, globalIdx := r * (k * n) + (kk * n + j), val := G r (i * n + j) * A i kk }]) := by
  have g : ∀ {p q x y : Nat}, x < p → y < q → globalIndex [x, y] [p, q] none = .ok (x * q + y) := by
    intro p q x y hx hy
    rw [globalIndex_inRange (inRange2.2 ⟨hx, hy⟩)]; simp [rowMajor]
  have h1 := mul_add_lt hi hjn
  have h2 := mul_add_lt hi hk
  have h3 := mul_add_lt hk hjn
  unfold bmmJvpTask
  simp only [ha.1, hb.1, hj.1]
  rw [g hi hjn, g hi hk, g hk hjn]
  simp only [unwrapR_ok, R.bind_ok, idxR, List.getElem?_cons_zero, List.getElem?_cons_succ]
  rw [assertR_of (by simpa using h1)]
  simp only [R.bind_ok]
  rw [assertR_of (by simpa using h2)]
  simp only [R.bind_ok]
  refine (foldlM_ok _ (fun msgs r => msgs ++
      [{ right := false, globalIdx := r * (m * k) + (i * k + kk), val := G r (i * n + j) * B kk j },
       { right := true, globalIdx := r * (k * n) + (kk * n + j), val := G r (i * n + j) * A i kk }]) _ ?_ _).trans
    (by rw [foldl_append_flatMap]; rfl)
  intro s r hr
  rw [List.mem_range] at hr
  rw [g hr h2, g hr h3, hj.at hr h1, hb.at hk hjn, ha.at hi hk]
  rfl

theorem foldlM_append_one {α β : Type _} (f : α → R β) (g : α → β) (l : List α) (h : ∀ a ∈ l, f a = .ok (g a)) (acc : List β) :
    l.foldlM (fun acc a => do let v ← f a; return acc ++ [v]) acc = .ok (acc ++ l.map g) := by
  rw [foldlM_append, mapM_ok_of f g l h]; rfl

theorem bmmJvpTasks_ok [Mul T] {a b jac : Raw T} {m k n rows : Nat} {A B G : Nat → Nat → T} (ha : IsMat a m k A)
    (hb : IsMat b k n B) (hj : IsMat jac rows (m * n) G) :
    ∃ tasks, bmmJvpTasks a b jac ⟨[m, n], [m * n, m * k], [rows, m * k], [rows, k * n]⟩ = .ok tasks ∧
      tasks.flatten = jvpMsgs m k n rows A B G := by
  let task : Nat → Nat → Nat → List (Msg T) := fun i kk j => (List.range rows).flatMap fun r =>
      [{ right := false, globalIdx := r * (m * k) + (i * k + kk), val := G r (i * n + j) * B kk j },
       { right := true, globalIdx := r * (k * n) + (kk * n + j), val := G r (i * n + j) * A i kk }]
  refine ⟨(List.range m).flatMap fun i => (List.range k).flatMap fun kk => (List.range n).map fun j => task i kk j, ?_, ?_⟩
  · unfold bmmJvpTasks
    simp only [ha.1, hb.1]
    simp only [idxR, List.getElem?_cons_zero, List.getElem?_cons_succ, R.bind_ok]
    refine (foldlM_ok _ (fun acc i => acc ++ (List.range k).flatMap fun kk => (List.range n).map fun j => task i kk j) _
      (fun acc i hi => ?_) _).trans (by rw [foldl_append_flatMap]; rfl)
    refine (foldlM_ok _ (fun acc kk => acc ++ (List.range n).map fun j => task i kk j) _
      (fun acc kk hk => ?_) _).trans (by rw [foldl_append_flatMap])
    exact foldlM_append_one _ (task i kk) _ (fun j hj' => bmmJvpTask_ok ha hb hj (List.mem_range.1 hi) (List.mem_range.1 hk)
      (List.mem_range.1 hj')) acc
  · simp only [List.flatten_eq_flatMap, List.flatMap_assoc, List.flatMap_map, id_eq, jvpMsgs, task]

theorem bmmJvp_ok [Zero T] [Add T] [Mul T] {a b jac : Raw T} {m k n rows : Nat} {A B G : Nat → Nat → T} (ha : IsMat a m k A)
    (hb : IsMat b k n B) (hj : IsMat jac rows (m * n) G) :
    bmmJvp [a, b] [jac] = .ok
      [⟨accum (List.replicate (rows * (m * k)) 0) (contribs false (rows * (m * k)) (jvpMsgs m k n rows A B G)), [rows, m * k]⟩,
       ⟨accum (List.replicate (rows * (k * n)) 0) (contribs true (rows * (k * n)) (jvpMsgs m k n rows A B G)), [rows, k * n]⟩] := by
  obtain ⟨tasks, h1, h2⟩ := bmmJvpTasks_ok ha hb hj
  have hsh : bmmJvpShapes a b jac = .ok ⟨[m, n], [m * n, m * k], [rows, m * k], [rows, k * n]⟩ := by
    simp [bmmJvpShapes, ha.1, hb.1, hj.1, idxR]
  unfold bmmJvp
  have h0 : assertR ([a, b].length == 2 && [jac].length == 1) = .ok () := rfl
  simp only [h0, R.bind_ok, idxR, List.getElem?_cons_zero, List.getElem?_cons_succ]
  rw [hsh]
  simp only [R.bind_ok]
  rw [h1]
  simp only [R.bind_ok, h2]
  simp only [List.foldl_cons, List.foldl_nil, Nat.one_mul]
  rw [deliver_all _ (rows * (m * k)) (rows * (k * n)) _ _ (by simp) (by simp)]
  · simp only [R.bind_ok]
    rw [Raw.new_ok (by simp [accum_length]), Raw.new_ok (by simp [accum_length])]
    rfl
  · intro x hx
    simp only [jvpMsgs, List.mem_flatMap, List.mem_range] at hx
    obtain ⟨i, hi, kk, hk, j, hjn, r, hr, hx⟩ := hx
    simp only [List.mem_cons, List.not_mem_nil, or_false] at hx
    rcases hx with rfl | rfl
    · simpa using mul_add_lt hr (mul_add_lt hi hk)
    · simpa using mul_add_lt hr (mul_add_lt hk hjn)

/-- the two arrays `bmm_jvp` computes: the cell for flat index `p` is found at `segPos` -/
theorem bmmJvp_cells [Zero T] [Add T] [Mul T] {a b jac : Raw T} {m k n rows : Nat} {A B G : Nat → Nat → T} (ha : IsMat a m k A)
    (hb : IsMat b k n B) (hj : IsMat jac rows (m * n) G) :
    ∃ l r, bmmJvp [a, b] [jac] = .ok [l, r] ∧ l.shape = [rows, m * k] ∧ WF l ∧ r.shape = [rows, k * n] ∧ WF r ∧
      (∀ row < rows, ∀ i < m, ∀ kk < k, l.array[segPos (rows * (m * k)) (row * (m * k) + (i * k + kk))]? =
        some ((List.range n).foldl (fun acc j => acc + G row (i * n + j) * B kk j) 0)) ∧
      (∀ row < rows, ∀ kk < k, ∀ j < n, r.array[segPos (rows * (k * n)) (row * (k * n) + (kk * n + j))]? =
        some ((List.range m).foldl (fun acc i => acc + G row (i * n + j) * A i kk) 0)) := by
  refine ⟨_, _, bmmJvp_ok ha hb hj, rfl, by simp [WF, accum_length], rfl, by simp [WF, accum_length], ?_, ?_⟩
  · intro row hrow i hi kk hk
    rw [accum_getElem?, contribs_left_cell hrow hi hk,
      List.getElem?_replicate, if_pos (segPos_lt (mul_add_lt hrow (mul_add_lt hi hk)))]
    simp [List.foldl_map]
  · intro row hrow kk hk j hjn
    rw [accum_getElem?, contribs_right_cell hrow hk hjn,
      List.getElem?_replicate, if_pos (segPos_lt (mul_add_lt hrow (mul_add_lt hk hjn)))]
    simp [List.foldl_map]

end RL
