import Verif.Props.Concurrent
import Verif.Props.Jvp
import Verif.Props.MatMul
import Verif.Props.Nn
import Verif.Lemmas.Cells
import Verif.Lemmas.Round
import Verif.Lemmas.Binary

/-!
# Rounding errors (C63, C64, C65)

`T` is any type of numbers that rounds as described by `Spec.Rounding`; binary floating point formats do (`Format.rounding`).
-/

namespace RL

open Spec SplitWriter Spec.Format

variable {T : Type}

/-- C33 with explicit contributions: with matrices of the right sizes no task panics, and after every schedule each cell is the sum
from 0 of its products, in some order. -/
theorem C33_cells [Zero T] [Add T] [Mul T] (a b jac : Raw T) (m k n rows : Nat) (A B G : Nat → Nat → T)
    (ha : WF a) (hb : WF b) (hj : WF jac) (has : a.shape = [m, k]) (hbs : b.shape = [k, n])
    (hjs : jac.shape = [rows, m * n])
    (hA : ∀ i < m, ∀ kk < k, Raw.elem? a [i, kk] = some (A i kk))
    (hB : ∀ kk < k, ∀ j < n, Raw.elem? b [kk, j] = some (B kk j))
    (hG : ∀ row < rows, ∀ i < m, ∀ j < n, Raw.elem? jac [row, i * n + j] = some (G row (i * n + j)))
    (sh : BmmJvpShapes) (progs : List (Prog T)) (h : IsScope a b jac sh progs) (s : St T)
    (hs : Relation.ReflTransGen AnyStep (St.init progs (lens sh)) s) (hc : s.Complete) :
    Sender.failed ∉ s.senders ∧ (s.arr false).length = rows * (m * k) ∧ (s.arr true).length = rows * (k * n) ∧
      (∀ row < rows, ∀ i < m, ∀ kk < k, ∀ p, p = row * (m * k) + (i * k + kk) → ∃ order : List Nat, order.Perm (List.range n) ∧
        (s.arr false)[rows * (m * k) - min (32 * (p / 32 + 1)) (rows * (m * k)) + p % 32]? =
          some (order.foldl (fun acc j => acc + G row (i * n + j) * B kk j) 0)) ∧
      (∀ row < rows, ∀ kk < k, ∀ j < n, ∀ p, p = row * (k * n) + (kk * n + j) → ∃ order : List Nat, order.Perm (List.range m) ∧
        (s.arr true)[rows * (k * n) - min (32 * (p / 32 + 1)) (rows * (k * n)) + p % 32]? =
          some (order.foldl (fun acc i => acc + G row (i * n + j) * A i kk) 0)) := by
  obtain ⟨h1, h2, h3, h4, h5⟩ := IsScope.cells h (isMat_of ha has hA) (isMat_of hb hbs hB) (isMat_grad hj hjs hG) hs hc
  refine ⟨h1, h2, h3, ?_, ?_⟩
  · rintro row hrow i hi kk hk p rfl
    exact h4 row hrow i hi kk hk
  · rintro row hrow kk hk j hjn p rfl
    exact h5 row hrow kk hk j hjn

section
variable [Zero T] [Add T] [Mul T] [Neg T]

/-! ## forward (C63) -/

/-- C63 for `sum`: if the result is finite, then so are all elements, and the error is at most `(1 + u)^(n-1) - 1` times the sum of
the absolute values, for `n` elements. -/
theorem C63_sum (ρ : Rounding T) (x : TL T) (hx : Ok x) (hp : (∃ t, x = .raw t) ∨ Pos x.shape) :
    ∃ s, x.sum = .ok (Raw.scalar s) ∧ (ρ.fin s → (∀ v ∈ elems x, ρ.fin v) ∧
      |ρ.val s - ((elems x).map ρ.val).sum| ≤ ((1 + ρ.u) ^ ((elems x).length - 1) - 1) * ((elems x).map fun v => |ρ.val v|).sum) :=
  ⟨_, C16_sum x hx hp, fun hf => ρ.sum_error _ hf⟩

/-- C63: the factor in these bounds is small as long as `n` is small compared with `1 / u`. -/
theorem C63_gamma (ρ : Rounding T) (n : Nat) (h : n * ρ.u < 1) : (1 + ρ.u) ^ n - 1 ≤ n * ρ.u / (1 - n * ρ.u) := by
  have hu := ρ.u_nonneg
  rw [le_div_iff₀ (by linarith)]
  rcases Nat.eq_zero_or_pos n with rfl | hn
  · simp
  · have h1 : (1 : ℝ) ≤ n := by exact_mod_cast hn
    have hu1 : ρ.u < 1 := by nlinarith
    have h2 : 1 - n * ρ.u ≤ (1 - ρ.u) ^ n := by
      have := one_add_mul_le_pow (a := -ρ.u) (by linarith) n
      rw [← sub_eq_add_neg] at this
      linarith
    have h3 : (1 + ρ.u) ^ n * (1 - ρ.u) ^ n ≤ 1 := by
      rw [← mul_pow]
      exact pow_le_one₀ (by nlinarith) (by nlinarith)
    have h4 := mul_le_mul_of_nonneg_left h2 (show 0 ≤ (1 + ρ.u) ^ n by positivity)
    nlinarith

/-- C63 for `dot`. -/
theorem C63_dot (ρ : Rounding T) (l r : Raw T) (hl : WF l) (hr : WF r) (hs : l.shape = r.shape) :
    ∃ s, dotRaw (.raw l) (.raw r) = .ok ⟨[s], [1]⟩ ∧ (ρ.fin s → ∀ n, n = l.array.length →
      |ρ.val s - ((l.array.zip r.array).map fun x => ρ.val x.1 * ρ.val x.2).sum| ≤
        ρ.dotError n ((l.array.zip r.array).map fun x => |ρ.val x.1 * ρ.val x.2|).sum) := by
  refine ⟨_, (C17_dot_partial l r hl hr).1 hs, fun hf n hn => ?_⟩
  have e : List.zipWith (· * ·) l.array r.array = (l.array.zip r.array).map fun x => x.1 * x.2 := by
    rw [List.zip, List.map_zipWith]
  rw [e] at hf ⊢
  have hlen : (l.array.zip r.array).length = n := by
    rw [List.length_zip, hn, show r.array.length = l.array.length by rw [hl, hr, hs], Nat.min_self]
  have := (ρ.dot_error (l.array.zip r.array) Prod.fst Prod.snd hf).2
  rwa [hlen] at this

/-- C63 for the matrix product: every finite entry has an error of at most `(1 + u)^k - 1` times the sum of the absolute values of the
products (and something for products that underflow). -/
theorem C63_matrix (ρ : Rounding T) (l r : TL T) (hl : Ok l) (hr : Ok r) (m k n : Nat) (hls : l.shape = [m, k]) (hrs : r.shape = [k, n])
    (a b : Nat → Nat → T) (ha : ∀ i kk, i < m → kk < k → elem? l [i, kk] = some (a i kk))
    (hb : ∀ kk j, kk < k → j < n → elem? r [kk, j] = some (b kk j)) :
    ∃ t, bmmRaw l r = .ok t ∧ t.shape = [m, n] ∧ ∀ i j, i < m → j < n → ∃ c, t.get [i, j] = .ok c ∧ (ρ.fin c →
      (∀ kk < k, ρ.fin (a i kk) ∧ ρ.fin (b kk j)) ∧
      |ρ.val c - ∑ kk ∈ Finset.range k, ρ.val (a i kk) * ρ.val (b kk j)| ≤
        ρ.dotError k (∑ kk ∈ Finset.range k, |ρ.val (a i kk) * ρ.val (b kk j)|)) := by
  obtain ⟨t, h1, h2, _, a', b', ha', hb', h3⟩ := C18_matrix l r hl hr m k n hls hrs
  refine ⟨t, h1, h2, fun i j hi hj => ⟨_, h3 i j hi hj, fun hf => ?_⟩⟩
  have e : (List.range k).foldl (fun acc kk => acc + a' i kk * b' kk j) 0 = (List.range k).foldl (fun acc kk => acc + a i kk * b kk j) 0 := by
    refine List.foldl_ext _ _ _ fun acc kk hk => ?_
    rw [List.mem_range] at hk
    rw [Option.some.inj ((ha' i kk hi hk).symm.trans (ha i kk hi hk)), Option.some.inj ((hb' kk j hk hj).symm.trans (hb kk j hk hj))]
  rw [e] at hf ⊢
  exact ρ.order_error k (a i) (fun kk => b kk j) _ (List.Perm.refl _) hf

/-- C63 for a batch of matrices. -/
theorem C63_batched (ρ : Rounding T) (l r : TL T) (hl : Ok l) (hr : Ok r) (nb m k n : Nat) (hls : l.shape = [nb, m, k])
    (hrs : r.shape = [k, n]) (a : Nat → Nat → Nat → T) (b : Nat → Nat → T)
    (ha : ∀ p i kk, p < nb → i < m → kk < k → elem? l [p, i, kk] = some (a p i kk))
    (hb : ∀ kk j, kk < k → j < n → elem? r [kk, j] = some (b kk j)) :
    ∃ t, bmmRaw l r = .ok t ∧ t.shape = [nb, m, n] ∧ ∀ p i j, p < nb → i < m → j < n → ∃ c, t.get [p, i, j] = .ok c ∧ (ρ.fin c →
      (∀ kk < k, ρ.fin (a p i kk) ∧ ρ.fin (b kk j)) ∧
      |ρ.val c - ∑ kk ∈ Finset.range k, ρ.val (a p i kk) * ρ.val (b kk j)| ≤
        ρ.dotError k (∑ kk ∈ Finset.range k, |ρ.val (a p i kk) * ρ.val (b kk j)|)) := by
  obtain ⟨t, h1, h2, _, a', b', ha', hb', h3⟩ := C18_batched l r hl hr nb m k n hls hrs
  refine ⟨t, h1, h2, fun p i j hp hi hj => ⟨_, h3 p i j hp hi hj, fun hf => ?_⟩⟩
  have e : (List.range k).foldl (fun acc kk => acc + a' p i kk * b' kk j) 0 =
      (List.range k).foldl (fun acc kk => acc + a p i kk * b kk j) 0 := by
    refine List.foldl_ext _ _ _ fun acc kk hk => ?_
    rw [List.mem_range] at hk
    rw [Option.some.inj ((ha' p i kk hp hi hk).symm.trans (ha p i kk hp hi hk)),
      Option.some.inj ((hb' kk j hk hj).symm.trans (hb kk j hk hj))]
  rw [e] at hf ⊢
  exact ρ.order_error k (a p i) (fun kk => b kk j) _ (List.Perm.refl _) hf

theorem affine_exact (k : Nat) (x w : Nat → Nat → ℝ) (b : Nat → ℝ) (i j : Nat) :
    affine k x w b i j = ∑ kk ∈ Finset.range k, x i kk * w kk j + b j := by
  unfold affine
  congr 1
  induction k with
  | zero => simp
  | succ k ih => rw [List.range_succ, List.foldl_append, ih, Finset.sum_range_succ]; rfl

theorem net_error (ρ : Rounding T) (m : Nat) (ss : List (LayerApprox T)) (hv : ∀ s ∈ ss, s.Valid ρ) :
    ∀ (k : Nat) (x : Nat → Nat → T) (X e : Nat → Nat → ℝ), netFinite ρ m k ss x →
      (∀ i < m, ∀ j < k, |ρ.val (x i j) - X i j| ≤ e i j) →
      ∀ i < m, ∀ j < outWidth k (ss.map (·.toLayerFn)),
        |ρ.val (netValue k (ss.map (·.toLayerFn)) x i j) - netValue k (ss.map (·.exact ρ)) X i j| ≤ netError ρ k ss x e i j := by
  induction ss with
  | nil => intro k x X e _ h i hi j hj; exact h i hi j hj
  | cons s ss ih =>
    intro k x X e hf h
    obtain ⟨h0, h1, h2⟩ := hv s (by simp)
    simp only [List.map_cons, netValue, netError, outWidth]
    refine ih (fun s hs => hv s (by simp [hs])) s.width _ _ _ hf.2 fun i hi j hj => ?_
    have hfin := hf.1 i hi j hj
    have e1 := h2 _ hfin
    have e2 := ρ.affine_error k x s.w s.b i j hfin
    have e3 : |∑ kk ∈ Finset.range k, ρ.val (x i kk) * ρ.val (s.w kk j) + ρ.val (s.b j) -
        affine k X (fun i j => ρ.val (s.w i j)) (fun j => ρ.val (s.b j)) i j| ≤ ∑ kk ∈ Finset.range k, e i kk * |ρ.val (s.w kk j)| := by
      rw [affine_exact, add_sub_add_right_eq_sub, ← Finset.sum_sub_distrib]
      refine (Finset.abs_sum_le_sum_abs _ _).trans (Finset.sum_le_sum fun kk hk => ?_)
      rw [Finset.mem_range] at hk
      rw [← sub_mul, abs_mul]
      exact mul_le_mul_of_nonneg_right (h i hi kk hk) (abs_nonneg _)
    have e4 : |ρ.val (affine k x s.w s.b i j) - affine k X (fun i j => ρ.val (s.w i j)) (fun j => ρ.val (s.b j)) i j| ≤
        ∑ kk ∈ Finset.range k, e i kk * |ρ.val (s.w kk j)| + ρ.affineError k x s.w s.b i j := by
      refine (abs_sub_le _ (∑ kk ∈ Finset.range k, ρ.val (x i kk) * ρ.val (s.w kk j) + ρ.val (s.b j)) _).trans ?_
      linarith
    have e5 := (h1 (ρ.val (affine k x s.w s.b i j)) (affine k X (fun i j => ρ.val (s.w i j)) (fun j => ρ.val (s.b j)) i j)).trans
      (mul_le_mul_of_nonneg_left e4 h0)
    refine (abs_sub_le _ (s.ψ (ρ.val (affine k x s.w s.b i j))) _).trans ?_
    exact (add_le_add e1 e5).trans (le_of_eq (add_comm _ _))

/-- C63 for a network: if nothing overflows, every output differs from the output of the same network in exact arithmetic by at most
`netError`, which is computed from the weights and the values in the network. -/
theorem C63_network (ρ : Rounding T) (mlp : Mlp T) (ss : List (LayerApprox T)) (h : Heap T) (x : Nat) (xv : Raw T) (m k : Nat)
    (a : Nat → Nat → T) (hm : 0 < m) (hx : dataOf h x = some xv) (hxm : Matrix xv m k a)
    (hl : LayersAre h k mlp.layers (ss.map (·.toLayerFn))) (hv : ∀ s ∈ ss, s.Valid ρ) (hf : netFinite ρ m k ss a) :
    ∃ h' r v y, mlp.forward h x = .ok (h', r) ∧ dataOf h' r = some v ∧ Matrix v m (outWidth k (ss.map (·.toLayerFn))) y ∧
      ∀ i < m, ∀ j < outWidth k (ss.map (·.toLayerFn)),
        |ρ.val (y i j) - netValue k (ss.map (·.exact ρ)) (fun i j => ρ.val (a i j)) i j| ≤ netError ρ k ss a (fun _ _ => 0) i j := by
  obtain ⟨h', r, v, e1, e2, e3, _⟩ := C45_forward mlp (ss.map (·.toLayerFn)) h x xv m k a hm hx hxm hl
  exact ⟨h', r, v, _, e1, e2, e3, net_error ρ m ss hv k a _ _ hf (by simp)⟩

/-- Activations that round nothing: the identity. -/
example (ρ : Rounding T) (n : Nat) (w : Nat → Nat → T) (b : Nat → T) : (⟨⟨n, w, b, id⟩, id, 1, 0⟩ : LayerApprox T).Valid ρ :=
  ⟨by norm_num, fun x y => by simp, fun x _ => by simp⟩

/-- The same for `relu`, where `<` compares numbers. -/
example [LT T] [DecidableLT T] (ρ : Rounding T) (hlt : ∀ x, ρ.fin x → (x < 0 ↔ ρ.val x < 0)) (n : Nat) (w : Nat → Nat → T) (b : Nat → T) :
    (⟨⟨n, w, b, fun x => if x < 0 then 0 else x⟩, fun x => max x 0, 1, 0⟩ : LayerApprox T).Valid ρ := by
  refine ⟨by norm_num, fun x y => by rw [one_mul]; exact abs_max_sub_max_le_abs x y 0, fun x hx => ?_⟩
  simp only
  split
  · rename_i h
    rw [hlt x hx] at h
    rw [ρ.val_zero, max_eq_right h.le]; simp
  · rename_i h
    rw [hlt x hx, not_lt] at h
    rw [max_eq_left h]; simp

/-! ## gradient of the matrix product (C64) -/

/-- C64: after every schedule, every finite cell of the gradient of the matrix product has an error of at most `dotError`, which does
not depend on the schedule. (The cell for flat position `p` is found at the place given by `rchunks_mut`, see C32.) -/
theorem C64_error (ρ : Rounding T) (a b jac : Raw T) (m k n rows : Nat) (A B G : Nat → Nat → T)
    (ha : WF a) (hb : WF b) (hj : WF jac) (has : a.shape = [m, k]) (hbs : b.shape = [k, n])
    (hjs : jac.shape = [rows, m * n])
    (hA : ∀ i < m, ∀ kk < k, Raw.elem? a [i, kk] = some (A i kk))
    (hB : ∀ kk < k, ∀ j < n, Raw.elem? b [kk, j] = some (B kk j))
    (hG : ∀ row < rows, ∀ i < m, ∀ j < n, Raw.elem? jac [row, i * n + j] = some (G row (i * n + j)))
    (sh : BmmJvpShapes) (progs : List (Prog T)) (h : IsScope a b jac sh progs) (s : St T)
    (hs : Relation.ReflTransGen AnyStep (St.init progs (lens sh)) s) (hc : s.Complete) :
    (∀ row < rows, ∀ i < m, ∀ kk < k, ∀ p, p = row * (m * k) + (i * k + kk) → ∃ c,
      (s.arr false)[rows * (m * k) - min (32 * (p / 32 + 1)) (rows * (m * k)) + p % 32]? = some c ∧ (ρ.fin c →
        |ρ.val c - ∑ j ∈ Finset.range n, ρ.val (G row (i * n + j)) * ρ.val (B kk j)| ≤
          ρ.dotError n (∑ j ∈ Finset.range n, |ρ.val (G row (i * n + j)) * ρ.val (B kk j)|))) ∧
    (∀ row < rows, ∀ kk < k, ∀ j < n, ∀ p, p = row * (k * n) + (kk * n + j) → ∃ c,
      (s.arr true)[rows * (k * n) - min (32 * (p / 32 + 1)) (rows * (k * n)) + p % 32]? = some c ∧ (ρ.fin c →
        |ρ.val c - ∑ i ∈ Finset.range m, ρ.val (G row (i * n + j)) * ρ.val (A i kk)| ≤
          ρ.dotError m (∑ i ∈ Finset.range m, |ρ.val (G row (i * n + j)) * ρ.val (A i kk)|))) := by
  obtain ⟨_, _, _, h4, h5⟩ := C33_cells a b jac m k n rows A B G ha hb hj has hbs hjs hA hB hG sh progs h s hs hc
  constructor
  · intro row hrow i hi kk hk p hp
    obtain ⟨o, ho, e⟩ := h4 row hrow i hi kk hk p hp
    exact ⟨_, e, fun hf => (ρ.order_error n (fun j => G row (i * n + j)) (fun j => B kk j) o ho hf).2⟩
  · intro row hrow kk hk j hjn p hp
    obtain ⟨o, ho, e⟩ := h5 row hrow kk hk j hjn p hp
    exact ⟨_, e, fun hf => (ρ.order_error m (fun i => G row (i * n + j)) (fun i => A i kk) o ho hf).2⟩

/-- C64 for two runs, on pools of any size and called from anywhere: the results need not be equal (C58), but two finite results for
the same cell differ by at most twice the error bound. -/
theorem C64_runs (ρ : Rounding T) (a b jac : Raw T) (m k n rows : Nat) (A B G : Nat → Nat → T)
    (ha : WF a) (hb : WF b) (hj : WF jac) (has : a.shape = [m, k]) (hbs : b.shape = [k, n])
    (hjs : jac.shape = [rows, m * n])
    (hA : ∀ i < m, ∀ kk < k, Raw.elem? a [i, kk] = some (A i kk))
    (hB : ∀ kk < k, ∀ j < n, Raw.elem? b [kk, j] = some (B kk j))
    (hG : ∀ row < rows, ∀ i < m, ∀ j < n, Raw.elem? jac [row, i * n + j] = some (G row (i * n + j)))
    (sh : BmmJvpShapes) (progs : List (Prog T)) (h : IsScope a b jac sh progs) (w1 w2 : Nat) (c1 c2 : Option Nat)
    (hc1 : ∀ c, c1 = some c → c < w1) (hc2 : ∀ c, c2 = some c → c < w2) (p q : PSt T)
    (hp : Relation.ReflTransGen (PStep w1 c1) (PSt.init progs (lens sh)) p) (hpc : p.Complete w1)
    (hq : Relation.ReflTransGen (PStep w2 c2) (PSt.init progs (lens sh)) q) (hqc : q.Complete w2) :
    (∀ row < rows, ∀ i < m, ∀ kk < k, ∀ g, g = row * (m * k) + (i * k + kk) → ∀ pos,
      pos = rows * (m * k) - min (32 * (g / 32 + 1)) (rows * (m * k)) + g % 32 → ∃ x y,
      (p.data.arr false)[pos]? = some x ∧ (q.data.arr false)[pos]? = some y ∧ (ρ.fin x → ρ.fin y →
        |ρ.val x - ρ.val y| ≤ 2 * ρ.dotError n (∑ j ∈ Finset.range n, |ρ.val (G row (i * n + j)) * ρ.val (B kk j)|))) ∧
    (∀ row < rows, ∀ kk < k, ∀ j < n, ∀ g, g = row * (k * n) + (kk * n + j) → ∀ pos,
      pos = rows * (k * n) - min (32 * (g / 32 + 1)) (rows * (k * n)) + g % 32 → ∃ x y,
      (p.data.arr true)[pos]? = some x ∧ (q.data.arr true)[pos]? = some y ∧ (ρ.fin x → ρ.fin y →
        |ρ.val x - ρ.val y| ≤ 2 * ρ.dotError m (∑ i ∈ Finset.range m, |ρ.val (G row (i * n + j)) * ρ.val (A i kk)|))) := by
  have run : ∀ {n : Nat} {c : Option Nat} {p : PSt T}, (∀ x, c = some x → x < n) →
      Relation.ReflTransGen (PStep n c) (PSt.init progs (lens sh)) p → p.Complete n →
      Relation.ReflTransGen AnyStep (St.init progs (lens sh)) p.data ∧ p.data.Complete := by
    intro n c p hcl hp hpc
    obtain ⟨w, q, hi⟩ := h.inv (PReach.data hp)
    exact ⟨PReach.data hp, (PReach.pinv hcl hp).complete hi hpc⟩
  obtain ⟨p1, p2⟩ := run hc1 hp hpc
  obtain ⟨q1, q2⟩ := run hc2 hq hqc
  obtain ⟨l1, r1⟩ := C64_error ρ a b jac m k n rows A B G ha hb hj has hbs hjs hA hB hG sh progs h _ p1 p2
  obtain ⟨l2, r2⟩ := C64_error ρ a b jac m k n rows A B G ha hb hj has hbs hjs hA hB hG sh progs h _ q1 q2
  have close : ∀ {x y s e : ℝ}, |x - s| ≤ e → |y - s| ≤ e → |x - y| ≤ 2 * e := by
    intro x y s e h1 h2
    have := abs_sub_le x s y
    rw [abs_sub_comm s y] at this
    linarith
  constructor
  · rintro row hrow i hi kk hk g hg pos rfl
    obtain ⟨x, hx, ex⟩ := l1 row hrow i hi kk hk g hg
    obtain ⟨y, hy, ey⟩ := l2 row hrow i hi kk hk g hg
    exact ⟨x, y, hx, hy, fun fx fy => close (ex fx) (ey fy)⟩
  · rintro row hrow kk hk j hjn g hg pos rfl
    obtain ⟨x, hx, ex⟩ := r1 row hrow kk hk j hjn g hg
    obtain ⟨y, hy, ey⟩ := r2 row hrow kk hk j hjn g hg
    exact ⟨x, y, hx, hy, fun fx fy => close (ex fx) (ey fy)⟩

end

/-! ## SGD step (C65) -/

section
variable [Zero T] [One T] [Add T] [Mul T] [Sub T] [Neg T] [LT T] [DecidableLT T] [LE T] [DecidableLE T] [RealFn T]

/-- C65: every finite coordinate of a new parameter differs from `p - lr * g` by at most `u |p| + (2 u + u^2) |lr g|` (and something
where the product underflows). -/
theorem C65_step (ρ : Rounding T) (mlp : Mlp T) (h : Heap T) (s : Nat) (lr : T) (hs : dataOf h s = some (Raw.scalar lr))
    (hp : ∀ p ∈ mlp.params, ParamOk h p) (hg : ∀ p ∈ mlp.params, gradOf h p ≠ none) :
    ∃ h' mlp', mlp.sgdStep h s = .ok (h', mlp') ∧
      List.Forall₂ (fun p q => ∃ v g v', dataOf h p = some v ∧ gradOf h p = some g ∧ dataOf h' q = some v' ∧ v'.shape = v.shape ∧
        v'.array.length = v.array.length ∧ ∀ (i : Nat) (x d y : T), v.array[i]? = some x → g.array[i]? = some d → v'.array[i]? = some y →
          ρ.fin y → |ρ.val y - (ρ.val x - ρ.val lr * ρ.val d)| ≤
            ρ.u * |ρ.val x| + (2 * ρ.u + ρ.u ^ 2) * |ρ.val lr * ρ.val d| + (1 + ρ.u) * ρ.eta) mlp.params mlp'.params := by
  obtain ⟨h', mlp', e1, _, e2, _⟩ := C47_step mlp h s lr hs hp hg
  refine ⟨h', mlp', e1, ?_⟩
  have hall : ∀ p ∈ mlp.params, ParamOk h p := hp
  clear e1 hp hg
  generalize mlp.params = ps at e2 hall
  generalize mlp'.params = qs at e2
  induction e2 with
  | nil => exact .nil
  | cons hd tl ih =>
    refine .cons ?_ (ih fun p hp => hall p (by simp [hp]))
    obtain ⟨v, g, hv, hg, _, hd, _⟩ := hd
    obtain ⟨v', hv', wv, _, hgv⟩ := hall _ List.mem_cons_self
    rw [hv] at hv'
    cases hv'
    obtain ⟨hgs, wg⟩ := hgv g hg
    refine ⟨v, g, _, hv, hg, hd, rfl, ?_, ?_⟩
    · have : g.array.length = v.array.length := by rw [wg, wv, hgs]
      simp [sgdUpdate, this]
    · intro i x d y hx hd hy hf
      simp only [sgdUpdate, List.getElem?_zipWith, hx, hd, Option.some.injEq] at hy
      subst hy
      obtain ⟨_, f1, a1⟩ := ρ.add _ _ hf
      obtain ⟨f2, a2⟩ := ρ.neg _ f1
      obtain ⟨_, _, a3⟩ := ρ.mul _ _ f2
      rw [a2] at a1
      set z := ρ.val (x + -(lr * d))
      set w := ρ.val (lr * d)
      set m := ρ.val lr * ρ.val d
      have hu := ρ.u_nonneg
      have t1 : |z - (ρ.val x - m)| ≤ |z - (ρ.val x + -w)| + |w - m| := by
        have e : z - (ρ.val x - m) = (z - (ρ.val x + -w)) + -(w - m) := by ring
        rw [e]
        exact (abs_add_le _ _).trans (by rw [abs_neg])
      have t2 : |ρ.val x + -w| ≤ |ρ.val x| + (|m| + |w - m|) := by
        have h1 := abs_add_le (ρ.val x) (-w)
        have h2 : |w| ≤ |m| + |w - m| := by simpa using abs_add_le m (w - m)
        rw [abs_neg] at h1
        linarith
      have t3 := mul_le_mul_of_nonneg_left t2 hu
      have t4 := mul_le_mul_of_nonneg_left a3 hu
      nlinarith

end

namespace RoundTest

theorem two_le_big : (2 : ℝ) ≤ binary64.big := by
  change (2 : ℝ) ≤ (2 ^ 53 - 1) * 2 ^ 971
  have h1 : (1 : ℝ) ≤ 2 ^ 971 := one_le_pow₀ (by norm_num)
  have h2 : (2 : ℝ) ≤ 2 ^ 53 - 1 := by norm_num
  exact h2.trans (le_mul_of_one_le_right (by linarith) h1)

/-- the number 1 of `f64` -/
noncomputable def one : binary64.Num := some ⟨1, ⟨1, 0, by norm_num [binary64], by norm_num [binary64], by norm_num⟩, by rw [abs_one]; linarith [two_le_big]⟩

theorem rep_two : binary64.Rep 2 := ⟨2, 0, by norm_num [binary64], by norm_num [binary64], by norm_num⟩

theorem one_add_one : one + one = some ⟨2, rep_two, by rw [abs_two]; exact two_le_big⟩ := by
  change binary64.result (1 + 1) = _
  rw [show (1 : ℝ) + 1 = 2 by norm_num]
  unfold result
  have e : binary64.fl 2 = 2 := binary64.fl_of_rep rep_two
  have hb : |binary64.fl 2| ≤ binary64.big := by rw [e, abs_two]; exact two_le_big
  rw [dif_pos hb]
  congr 2

end RoundTest

open RoundTest in
/-- C63, test: `f64` rounds like this, with finite results, and `u` is `2^-53`. -/
example : binary64.rounding.fin (one + one) ∧ binary64.rounding.val (one + one) = 2 ∧ binary64.rounding.u = 2 ^ (-53 : ℤ) := by
  rw [one_add_one]
  exact ⟨rfl, rfl, rfl⟩

/-- C63, test: for `f32` and a sum of 10000 products the factor is less than a thousandth. -/
example : (1 + binary32.rounding.u) ^ 10000 - 1 ≤ 1 / 1000 := by
  have hu : binary32.rounding.u = 1 / 2 ^ 24 := by
    change (2 : ℝ) ^ (-(24 : ℤ)) = _
    rw [zpow_neg]; norm_num
  refine (C63_gamma binary32.rounding 10000 (by rw [hu]; norm_num)).trans ?_
  rw [hu]; norm_num

end RL
