import Verif.Lemmas.Main
import Verif.Lemmas.TestInt

/-!
# The program `main` (C86) and training in both profiles (C84, C85)
-/

namespace RL

open Spec

section

variable {T : Type} [Zero T] [One T] [Add T] [Mul T] [Sub T] [Neg T] [LT T] [DecidableLT T] [LE T] [DecidableLE T] [RealFn T]

/-- C86: in the release profile `sample_vector` accepts every shape; it draws as many numbers as fit modulo `2^64`, and the next call goes on
behind them. -/
theorem C86_sample_release (draw : Nat → T) (h : Heap T) (k : Nat) (shape : List Nat) :
    sampleVectorU .release draw h k shape =
      .ok (h ++ [leafNode ⟨(List.range (shape.prod % 2 ^ 64)).map fun i => draw (k + i), shape⟩], k + shape.prod % 2 ^ 64, h.length) := by
  have h1 : prodU .release shape = .ok (shape.prod % 2 ^ 64) := by rw [prodU, foldlM_release _ _ (by norm_num), one_mul]
  simp only [sampleVectorU, Raw.newU, h1, R.bind_ok, List.length_map, List.length_range, beq_self_eq_true, assertR, if_true]
  rfl

/-- C86: in the debug profile it accepts exactly the shapes for which no intermediate product overflows, and panics for the others. -/
theorem C86_sample_debug (draw : Nat → T) (h : Heap T) (k : Nat) (shape : List Nat) :
    (∀ i, (shape.take i).prod < 2 ^ 64) ∧ sampleVectorU .debug draw h k shape =
        .ok (h ++ [leafNode ⟨(List.range shape.prod).map fun i => draw (k + i), shape⟩], k + shape.prod, h.length) ∨
      (∃ i, 2 ^ 64 ≤ (shape.take i).prod) ∧ sampleVectorU .debug draw h k shape = .error (.panic .overflow) := by
  have h1 : ∀ (l : List Nat) (a : Nat) (x : Fail), l.foldlM (mulU .debug) a = .error x → x = .panic .overflow := by
    intro l
    induction l with
    | nil => intro a x e; cases e
    | cons d l ih =>
      intro a x e
      rw [List.foldlM_cons] at e
      cases e1 : mulU .debug a d with
      | ok b => rw [e1] at e; exact ih b x e
      | error y =>
        rw [e1] at e
        cases e
        rw [mulU, wrapU] at e1
        split at e1 <;> cases e1
        rfl
  cases e : prodU .debug shape with
  | ok n =>
    left
    obtain ⟨rfl, h2⟩ := (foldlM_debug _ _ _ (by norm_num)).1 e
    simp only [one_mul] at h2 e
    refine ⟨h2, ?_⟩
    simp only [sampleVectorU, Raw.newU, e, R.bind_ok, List.length_map, List.length_range, beq_self_eq_true, assertR, if_true]
    rfl
  | error x =>
    right
    have h2 := h1 _ _ _ e
    subst h2
    refine ⟨?_, by simp only [sampleVectorU, e]; rfl⟩
    by_contra hc
    rw [not_exists] at hc
    have := (foldlM_debug shape 1 (1 * shape.prod) (by norm_num)).2 ⟨rfl, fun i => by rw [one_mul]; exact Nat.lt_of_not_le (hc i)⟩
    rw [prodU, this] at e
    cases e

/-- C84 for training: if it runs to its end with overflow checks, it gives the same graph and the same parameters without them, and with
unbounded numbers. -/
theorem C84_train (ls : List (Nat × Nat × Act)) (h h' : Heap T) (mlp' : Mlp T) (x y : Nat) (lr : T) (n : Nat)
    (e : trainU .debug (netOf (Act.runU .debug) ls) h x y lr n = .ok (h', mlp')) :
    (∃ ls', mlp' = netOf (Act.runU .debug) ls' ∧ trainU .release (netOf (Act.runU .release) ls) h x y lr n = .ok (h', netOf (Act.runU .release) ls')) ∧
    ∃ ls', mlp' = netOf (Act.runU .debug) ls' ∧ train (netOf Act.run ls) h x y lr n = .ok (h', netOf Act.run ls') := by
  rw [← kitU_train] at e
  constructor
  · obtain ⟨_, nlp, hm, h1⟩ := (moves_profile .release).train (netOf_match (A := kitU .debug) (B := kitU .release) ls) trivial e
    obtain ⟨ls', h2, h3⟩ := match_netOf hm
    exact ⟨ls', h2, by rw [← kitU_train]; exact h3 ▸ (h1 trivial).2⟩
  · obtain ⟨_, nlp, hm, h1⟩ := moves_nat.train (netOf_match (A := kitU .debug) (B := natKit) ls) trivial e
    obtain ⟨ls', h2, h3⟩ := match_netOf hm
    exact ⟨ls', h2, by rw [← natKit_train]; exact h3 ▸ (h1 trivial).2⟩

/-- C85 for training: if it runs to its end with unbounded numbers and all tensors fit, it does the same with overflow checks (and so, by
`C84_train`, without them). -/
theorem C85_train (ls : List (Nat × Nat × Act)) (h h' : Heap T) (mlp' : Mlp T) (x y : Nat) (lr : T) (n : Nat) (hr : Reachable h)
    (e : train (netOf Act.run ls) h x y lr n = .ok (h', mlp')) (hf : GraphFits h') :
    ∃ ls', mlp' = netOf Act.run ls' ∧ trainU .debug (netOf (Act.runU .debug) ls) h x y lr n = .ok (h', netOf (Act.runU .debug) ls') := by
  obtain ⟨ops, ho⟩ := hr
  rw [← natKit_train] at e
  obtain ⟨_, nlp, hm, h1⟩ := moves_debug.train (netOf_match (A := natKit) (B := kitU .debug) ls) (runOps_good ho) e
  obtain ⟨ls', h2, h3⟩ := match_netOf hm
  exact ⟨ls', h2, by rw [← kitU_train]; exact h3 ▸ (h1 hf).2⟩

/-- C86: the program of `main.rs` runs to its end for every type of elements and whatever values are drawn, for all positive sizes of the
network and the input and any number of steps; every tensor that it makes is a scalar or has the shape of the input, of a parameter or of
the output of a layer. -/
theorem C86_any (draw : Nat → T) (m k : Nat) (ds : List (Nat × Act)) (n : Nat) (lr : T) (hm : 0 < m) (hk : 0 < k) (hd : ∀ d ∈ ds, 0 < d.1) :
    ∃ h mlp, runMain draw m k (ds.map fun d => (d.1, d.2.arg)) (lastWidth k ds) n lr = .ok (h, mlp) ∧
      ∀ (i : Nat) (t : Raw T), dataOf h i = some t → t.shape ∈ mainShapes m k ds := by
  obtain ⟨h, mlp, e⟩ := startMain_train draw m k ds hm hk hd lr n
  refine ⟨h, mlp, (runMain_eq ..).trans e, fun i t ht => ?_⟩
  obtain ⟨nd, hn, rfl⟩ := dataOf_some ht
  exact (startMain_sized (P := (· ∈ mainShapes m k ds)) draw m k ds hm lr n (by simp [mainShapes]) mainShapes_start mainShapes_widths e).sized.shapes hn

/-- C86: over the real numbers the parameters at the end are those that were drawn, after `n` training steps on the drawn input. -/
theorem C86_real (draw : Nat → ℝ) (m k : Nat) (ds : List (Nat × Act)) (n : Nat) (lr : ℝ) (hm : 0 < m) (hk : 0 < k) (hd : ∀ d ∈ ds, 0 < d.1) :
    ∃ h mlp, runMain draw m k (ds.map fun d => (d.1, d.2.arg)) (lastWidth k ds) n lr = .ok (h, mlp) ∧
      NetIs h mlp k ds ((shuffledDescend lr m k ds (drawnInput draw k ds) fun _ _ => 1)^[n] (drawnParams draw k ds)) := by
  obtain ⟨h, mlp, e, ht⟩ := C50_actual n _ _ _ _ _ _ _ _ _ _ lr (startMain_training draw m k ds hm hk hd)
  exact ⟨h, mlp, (runMain_eq ..).trans e, ht.net⟩

/-- C86: if these shapes have fewer than 2^32 elements, then the program does the same with 64-bit numbers, with and without overflow
checks. -/
theorem C86_profiles (draw : Nat → T) (m k : Nat) (ds : List (Nat × Act)) (n : Nat) (lr : T) (hm : 0 < m) (hk : 0 < k) (hd : ∀ d ∈ ds, 0 < d.1)
    (hs : ∀ s ∈ mainShapes m k ds, s.prod < 2 ^ 32) :
    ∃ h mlp, runMain draw m k (ds.map fun d => (d.1, d.2.arg)) (lastWidth k ds) n lr = .ok (h, mlp) ∧
      ∀ p, ∃ mlp', runMainU p draw m k (ds.map fun d => (d.1, d.2.argU p)) (lastWidth k ds) n lr = .ok (h, mlp') ∧ mlp'.params = mlp.params := by
  obtain ⟨h, mlp, e⟩ := startMain_train draw m k ds hm hk hd lr n
  refine ⟨h, mlp, (runMain_eq ..).trans e, fun p => ?_⟩
  have hpos := mainShapes_pos hm hk hd
  have hmax : ∀ s ∈ mainShapes m k ds, (s.map (max 1)).prod = s.prod := fun s h => map_max_pos (hpos s h)
  have hgr := startMain_sized (P := (· ∈ mainShapes m k ds)) draw m k ds hm lr n (by simp [mainShapes]) mainShapes_start mainShapes_widths e
  have hfit : GraphFits h := by
    refine ⟨fun i t ht => ?_, fun i j t _ ht => ?_⟩
    · obtain ⟨nd, hn, rfl⟩ := dataOf_some ht
      have h1 := hgr.sized.shapes hn
      rw [Fits, hmax _ h1]
      exact lt_trans (hs _ h1) (by decide)
    · obtain ⟨nd, hn, rfl⟩ := dataOf_some ht
      exact hs _ (hgr.sized.shapes hn)
  have hf : ∀ s ∈ [m, k] :: [m, lastWidth k ds] :: paramShapes k ds, Fits s := fun s h => by
    have h1 := mainShapes_start s h
    rw [Fits, hmax _ h1]
    exact lt_trans (hs _ h1) (by decide)
  rw [← natKit_train] at e
  obtain ⟨_, dlp, hm1, h1⟩ := moves_debug.train (layersFrom_match (A := natKit) (B := kitU .debug) ds 0) (good_leaves _) e
  obtain ⟨_, rlp, hm2, h2⟩ := (moves_profile p).train (layersFrom_match (A := kitU .debug) (B := kitU p) ds 0) trivial (h1 hfit).2
  refine ⟨rlp, (runMainU_eq p draw m k ds n lr hf).trans ?_, hm2.params.trans hm1.params⟩
  rw [← kitU_train]
  exact (h2 trivial).2

/-- C86: `main` itself, with its layers of 8192, 8192 and 8 units, runs to its end whatever values are drawn, in both profiles; it makes the
same tensors as with unbounded numbers. -/
theorem C86 (draw : Nat → T) (lr : T) :
    ∃ h mlp, mainRs draw lr = .ok (h, mlp) ∧ ∀ p, ∃ mlp', mainRsU p draw lr = .ok (h, mlp') ∧ mlp'.params = mlp.params := by
  refine C86_profiles draw 1 8 [(8192, .relu), (8192, .tanh), (8, .tanh)] 2 lr (by decide) (by decide) (by decide) ?_
  simp only [mainShapes, paramShapes, List.map_cons, List.map_nil, List.cons_append, List.nil_append, List.forall_mem_cons]
  refine ⟨by decide, by decide, by decide, by decide, by decide, by decide, by decide, by decide, by decide, by decide, by decide, ?_⟩
  intro s hs
  cases hs

end

section

attribute [local instance] Test.intFn

/-- TEST: a small network of the same kind over the integers, one step. -/
example : (runMain (T := Int) (fun i => i % 3 - 1) 1 2 [(2, some reluT), (1, none)] 1 1 1).isOk = true := by decide +kernel

/-- TEST: the parameters after the step. -/
example : (runMain (T := Int) (fun i => i % 3 - 1) 1 2 [(2, some reluT), (1, none)] 1 1 1).map
    (fun r => r.2.params.map fun t => (dataOf r.1 t).map Raw.array) = .ok [some [0, 0, 1, -1], some [-1, 1], some [0, 1], some [2]] := by decide +kernel

/-- TEST: the hypothesis of `C84_train` holds for a step of a network with one layer. -/
example : (trainU (T := Int) .debug (netOf (Act.runU .debug) [(0, 1, .relu)])
    ([⟨[1, 2], [2, 1]⟩, ⟨[3], [1, 1]⟩, ⟨[4, 5], [1, 2]⟩, ⟨[0], [1, 1]⟩].map leafNode) 2 3 1 1).isOk = true := by decide +kernel

/-- TEST: so does the first one of `C85_train`; all its tensors have at most two elements. -/
example : (train (T := Int) (netOf Act.run [(0, 1, .relu)])
    ([⟨[1, 2], [2, 1]⟩, ⟨[3], [1, 1]⟩, ⟨[4, 5], [1, 2]⟩, ⟨[0], [1, 1]⟩].map leafNode) 2 3 1 1).map (fun r => r.1.all fun n => n.val.shape.prod ≤ 2) =
      .ok true := by decide +kernel

/-- TEST: the width of the expected output matters. -/
example : (runMain (T := Int) (fun i => i % 3 - 1) 1 2 [(2, some reluT), (3, none)] 2 1 1).isOk = false := by decide +kernel

end

end RL
