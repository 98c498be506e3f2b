import Verif.Props.Jvp

/-!
# For which sizes the gradient of a matrix product is right: C32
-/

namespace RL

open Spec

/-- C32 for given sizes. -/
def C32_at (T : Type) [Zero T] [Add T] [Mul T] (m k n rows : Nat) : Prop :=
  ∀ (a b jac : Raw T) (A B G : Nat → Nat → T),
    WF a → WF b → WF jac → a.shape = [m, k] → b.shape = [k, n] → jac.shape = [rows, m * n] →
    (∀ i < m, ∀ kk < k, Raw.elem? a [i, kk] = some (A i kk)) →
    (∀ kk < k, ∀ j < n, Raw.elem? b [kk, j] = some (B kk j)) →
    (∀ row < rows, ∀ i < m, ∀ j < n, Raw.elem? jac [row, i * n + j] = some (G row (i * n + j))) →
    ∃ l r, bmmJvp [a, b] [jac] = .ok [l, r] ∧ l.shape = [rows, m * k] ∧ r.shape = [rows, k * n] ∧
      (∀ row < rows, ∀ i < m, ∀ kk < k, Raw.elem? l [row, i * k + kk] =
        some ((List.range n).foldl (fun acc j => acc + G row (i * n + j) * B kk j) 0)) ∧
      (∀ row < rows, ∀ kk < k, ∀ j < n, Raw.elem? r [row, kk * n + j] =
        some ((List.range m).foldl (fun acc i => acc + G row (i * n + j) * A i kk) 0))

/-- `C32_statement` is this for all sizes. -/
theorem C32_at_all (T : Type) [Zero T] [Add T] [Mul T] : C32_statement T ↔ ∀ m k n rows, C32_at T m k n rows :=
  ⟨fun h m k n rows a b jac => h a b jac m k n rows, fun h a b jac m k n rows => h m k n rows a b jac⟩

/-- a matrix with 1 in its corner and 0 elsewhere -/
def corner (T : Type) [Zero T] [One T] (r c : Nat) : Raw T := ⟨(List.range (r * c)).map fun p => if p = 0 then 1 else 0, [r, c]⟩

/-- its elements -/
def cornerFn (T : Type) [Zero T] [One T] (c i j : Nat) : T := if i * c + j = 0 then 1 else 0

theorem corner_elem [Zero T] [One T] {r c i j : Nat} (hi : i < r) (hj : j < c) : Raw.elem? (corner T r c) [i, j] = some (cornerFn T c i j) := by
  simp only [Raw.elem?, corner, rowMajor_pair, List.getElem?_map, List.getElem?_range (mul_add_lt hi hj), Option.map_some, cornerFn]

/-- C32, exactly: for positive sizes the gradient of a matrix product is right for all matrices if and only if both gradient arrays have at
most 32 elements. -/
theorem C32_exact [CommRing T] [Nontrivial T] (m k n rows : Nat) (hm : 0 < m) (hk : 0 < k) (hn : 0 < n) (hr : 0 < rows) :
    C32_at T m k n rows ↔ rows * (m * k) ≤ 32 ∧ rows * (k * n) ≤ 32 := by
  constructor
  · intro H
    have hG : ∀ row < rows, ∀ i < m, ∀ j < n, Raw.elem? (corner T rows (m * n)) [row, i * n + j] = some (cornerFn T (m * n) row (i * n + j)) :=
      fun row hrow i hi j hj => corner_elem hrow (mul_add_lt hi hj)
    obtain ⟨l, r, e1, _, _, _, _, l1, r1⟩ := C32_actual (corner T m k) (corner T k n) (corner T rows (m * n)) m k n rows _ _ _ (by simp [WF, corner])
      (by simp [WF, corner]) (by simp [WF, corner]) rfl rfl rfl (fun i hi j hj => corner_elem hi hj) (fun i hi j hj => corner_elem hi hj) hG
    obtain ⟨l', r', e2, l2, r2, l3, r3⟩ := H (corner T m k) (corner T k n) (corner T rows (m * n)) _ _ _ (by simp [WF, corner])
      (by simp [WF, corner]) (by simp [WF, corner]) rfl rfl rfl (fun i hi j hj => corner_elem hi hj) (fun i hi j hj => corner_elem hi hj) hG
    rw [e1] at e2
    obtain ⟨rfl, rfl⟩ : l = l' ∧ r = r' := by simpa using e2
    constructor
    · by_contra hb
      push Not at hb
      have h1 := l1 0 hr 0 hm 0 hk 0 (by simp)
      set P := rows * (m * k) - 32 with hP
      have hPs : P ≠ 0 := by omega
      have hlt : P < rows * (m * k) := by omega
      have hmk : 0 < m * k := Nat.mul_pos hm hk
      have h2 := l3 (P / (m * k)) (Nat.div_lt_of_lt_mul (by rwa [Nat.mul_comm])) (P % (m * k) / k)
        (Nat.div_lt_of_lt_mul ((Nat.mod_lt _ hmk).trans_eq (Nat.mul_comm m k))) (P % (m * k) % k) (Nat.mod_lt _ hk)
      rw [Raw.elem?, l2, rowMajor_pair, Nat.div_add_mod', Nat.div_add_mod'] at h2
      rw [show rows * (m * k) - min (32 * (0 / 32 + 1)) (rows * (m * k)) + 0 % 32 = P by omega, h2, foldl_add_eq_sum, foldl_add_eq_sum,
        Option.some.injEq] at h1
      rw [Finset.sum_eq_zero, Finset.sum_eq_single 0] at h1
      · simp [cornerFn] at h1
      · intro j _ hj
        simp [cornerFn, hj]
      · intro h
        exact absurd (Finset.mem_range.2 hn) h
      · intro j _
        simp only [cornerFn]
        by_contra hne
        apply hPs
        have a1 : P / (m * k) * (m * n) + (P % (m * k) / k * n + j) = 0 := by
          by_contra h
          exact hne (by rw [if_neg h]; simp)
        have a2 : P % (m * k) % k * n + j = 0 := by
          by_contra h
          exact hne (by rw [if_neg h]; simp)
        have b1 : P / (m * k) = 0 := by
          have := Nat.mul_pos hm hn
          rcases Nat.eq_zero_or_pos (P / (m * k)) with h | h
          · exact h
          · have := Nat.mul_pos h this
            omega
        have b2 : P % (m * k) / k = 0 := by
          rcases Nat.eq_zero_or_pos (P % (m * k) / k) with h | h
          · exact h
          · have := Nat.mul_pos h hn
            omega
        have b3 : P % (m * k) % k = 0 := by
          rcases Nat.eq_zero_or_pos (P % (m * k) % k) with h | h
          · exact h
          · have := Nat.mul_pos h hn
            omega
        have c1 := Nat.div_add_mod' (P % (m * k)) k
        have c2 := Nat.div_add_mod' P (m * k)
        rw [b2, b3] at c1
        rw [b1, ← c1] at c2
        simpa using c2.symm
    · by_contra hb
      push Not at hb
      have h1 := r1 0 hr 0 hk 0 hn 0 (by simp)
      set P := rows * (k * n) - 32 with hP
      have hPs : P ≠ 0 := by omega
      have hlt : P < rows * (k * n) := by omega
      have hkn : 0 < k * n := Nat.mul_pos hk hn
      have h2 := r3 (P / (k * n)) (Nat.div_lt_of_lt_mul (by rwa [Nat.mul_comm])) (P % (k * n) / n)
        (Nat.div_lt_of_lt_mul ((Nat.mod_lt _ hkn).trans_eq (Nat.mul_comm k n))) (P % (k * n) % n) (Nat.mod_lt _ hn)
      rw [Raw.elem?, r2, rowMajor_pair, Nat.div_add_mod', Nat.div_add_mod'] at h2
      rw [show rows * (k * n) - min (32 * (0 / 32 + 1)) (rows * (k * n)) + 0 % 32 = P by omega, h2, foldl_add_eq_sum, foldl_add_eq_sum,
        Option.some.injEq] at h1
      rw [Finset.sum_eq_zero, Finset.sum_eq_single 0] at h1
      · simp [cornerFn] at h1
      · intro i _ hi
        simp [cornerFn, hi, hk.ne']
      · intro h
        exact absurd (Finset.mem_range.2 hm) h
      · intro i _
        simp only [cornerFn]
        by_contra hne
        apply hPs
        have a1 : P / (k * n) * (m * n) + (i * n + P % (k * n) % n) = 0 := by
          by_contra h
          exact hne (by rw [if_neg h]; simp)
        have a2 : i * k + P % (k * n) / n = 0 := by
          by_contra h
          exact hne (by rw [if_neg h]; simp)
        have b1 : P / (k * n) = 0 := by
          have := Nat.mul_pos hm hn
          rcases Nat.eq_zero_or_pos (P / (k * n)) with h | h
          · exact h
          · have := Nat.mul_pos h this
            omega
        have b2 : P % (k * n) / n = 0 := (Nat.add_eq_zero_iff.1 a2).2
        have b3 : P % (k * n) % n = 0 := by omega
        have c1 := Nat.div_add_mod' (P % (k * n)) n
        have c2 := Nat.div_add_mod' P (k * n)
        rw [b2, b3] at c1
        rw [b1, ← c1] at c2
        simpa using c2.symm
  · rintro ⟨h1, h2⟩ a b jac A B G ha hb hj has hbs hjs hA hB hG
    exact C32_partial a b jac m k n rows A B G h1 h2 ha hb hj has hbs hjs hA hB hG

/-- C32, test: one row of gradients. A 4 x 8 matrix times one with 8 x 4 elements is within the limit, 4 x 8 times 8 x 5 is not. -/
example : C32_at Int 4 8 4 1 ∧ ¬ C32_at Int 4 8 5 1 :=
  ⟨(C32_exact 4 8 4 1 (by omega) (by omega) (by omega) (by omega)).2 (by omega), fun h =>
    absurd ((C32_exact 4 8 5 1 (by omega) (by omega) (by omega) (by omega)).1 h) (by omega)⟩

end RL
