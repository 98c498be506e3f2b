import Verif.Props.Train

/-!
# States in which training can start: lemmas
-/

namespace RL

open Spec

noncomputable section

/-- weights and biases of a network -/
def paramData (θ : Nat → Nat → ℝ) : Nat → Nat → List (Nat × Act) → List (Raw ℝ)
  | _, _, [] => []
  | k, q, (n, _) :: ds => ⟨(List.range (k * n)).map (θ q), [k, n]⟩ :: ⟨(List.range n).map (θ (q + 1)), [n]⟩ :: paramData θ n (q + 2) ds

/-- the layers with parameters at `p` -/
def startLayers : Nat → List (Nat × Act) → List (Linear ℝ)
  | _, [] => []
  | p, (_, f) :: ds => ⟨p, p + 1, f.code⟩ :: startLayers (p + 2) ds

def matData (m k : Nat) (a : Nat → Nat → ℝ) : Raw ℝ := ⟨(List.range (m * k)).map fun c => a (c / k) (c % k), [m, k]⟩

/-- input, expected output, parameters -/
def startData (m k : Nat) (ds : List (Nat × Act)) (a b θ : Nat → Nat → ℝ) : List (Raw ℝ) :=
  matData m k a :: matData m (lastWidth k ds) b :: paramData θ k 0 ds

theorem matData_matrix (m k : Nat) (a : Nat → Nat → ℝ) : Matrix (matData m k a) m k a := by
  refine ⟨rfl, by simp [WF, matData], fun i hi j hj => ?_⟩
  simp only [Raw.elem?, matData, rowMajor_pair, List.getElem?_map, List.getElem?_range (mul_add_lt hi hj), Option.map_some, Option.some.injEq]
  rw [Nat.mul_comm i k, Nat.mul_add_div (by omega), Nat.div_eq_of_lt hj, Nat.mul_add_mod, Nat.mod_eq_of_lt hj, Nat.add_zero]

theorem paramData_length (θ : Nat → Nat → ℝ) : ∀ (ds : List (Nat × Act)) (k q : Nat), (paramData θ k q ds).length = 2 * ds.length := by
  intro ds
  induction ds with
  | nil => intros; rfl
  | cons d ds ih =>
    intro k q
    simp only [paramData, List.length_cons, ih]
    omega

theorem paramData_ok (θ : Nat → Nat → ℝ) : ∀ (ds : List (Nat × Act)) (k q : Nat), 0 < k → (∀ d ∈ ds, 0 < d.1) →
    ∀ v ∈ paramData θ k q ds, WF v ∧ Pos v.shape := by
  intro ds
  induction ds with
  | nil => intro k q _ _ v hv; cases hv
  | cons d ds ih =>
    obtain ⟨n, f⟩ := d
    intro k q hk hd v hv
    have hn : 0 < n := hd (n, f) (by simp)
    simp only [paramData, List.mem_cons] at hv
    rcases hv with rfl | rfl | hv
    · simp [WF, Pos, hk, hn]
    · simp [WF, Pos, hn]
    · exact ih n (q + 2) hn (fun d hd' => hd d (by simp [hd'])) v hv

theorem lastWidth_pos : ∀ (ds : List (Nat × Act)) (k : Nat), 0 < k → (∀ d ∈ ds, 0 < d.1) → 0 < lastWidth k ds := by
  intro ds
  induction ds with
  | nil => exact fun k hk _ => hk
  | cons d ds ih => exact fun k _ hd => ih d.1 (hd d (by simp)) fun d hd' => hd d (by simp [hd'])

theorem runOps_new : ∀ (vs : List (Raw ℝ)) (h : Heap ℝ), (∀ v ∈ vs, WF v) → runOps h (vs.map fun v => .new v.array v.shape) = .ok (h ++ vs.map leafNode) := by
  intro vs
  induction vs with
  | nil => intro h _; simp [runOps, pure, Except.pure]
  | cons v vs ih =>
    intro h hv
    rw [List.map_cons, runOps_cons]
    have h1 : Op.run h (.new v.array v.shape) = .ok (h ++ [leafNode v]) := by
      simp only [Op.run, Raw.new_ok (hv v (by simp)), R.bind_ok]
      rfl
    rw [h1, R.bind_ok, ih _ fun v hv' => hv v (by simp [hv'])]
    simp

theorem startLayers_params : ∀ (ds : List (Nat × Act)) (p : Nat), (⟨startLayers p ds⟩ : Mlp ℝ).params = List.range' p (2 * ds.length) := by
  intro ds
  induction ds with
  | nil => intro p; rfl
  | cons d ds ih =>
    intro p
    rw [startLayers, (C46_params _ _).2, ih]
    simp [Nat.mul_add, List.range'_succ]

theorem startLayers_are (θ : Nat → Nat → ℝ) (h : Heap ℝ) : ∀ (ds : List (Nat × Act)) (k q p : Nat), (∀ d ∈ ds, 0 < d.1) →
    (∀ t v, (paramData θ k q ds)[t]? = some v → dataOf h (p + t) = some v) → LayersAre h k (startLayers p ds) (layerFns θ q ds) := by
  intro ds
  induction ds with
  | nil => intros; trivial
  | cons d ds ih =>
    obtain ⟨n, f⟩ := d
    intro k q p hd hh
    refine ⟨⟨hd (n, f) (by simp), acts_code f, _, _, hh 0 _ rfl, hh 1 _ rfl, ?_, ?_⟩, ?_⟩
    · refine ⟨rfl, by simp [WF], fun i hi j hj => ?_⟩
      simp only [Raw.elem?, rowMajor_pair, List.getElem?_map]
      rw [List.getElem?_range (mul_add_lt hi hj)]
      rfl
    · refine ⟨Or.inl rfl, by simp [WF], fun j hj => ?_⟩
      rw [List.getElem?_map, List.getElem?_range hj]
      rfl
    · refine ih n (q + 2) (p + 2) (fun d hd' => hd d (by simp [hd'])) fun t v hv => ?_
      have := hh (t + 2) v hv
      rwa [show p + (t + 2) = p + 2 + t by omega] at this

theorem dataOf_leaves {vs : List (Raw ℝ)} {t : Nat} {v : Raw ℝ} (hv : vs[t]? = some v) : dataOf (vs.map leafNode) t = some v ∧
    historyOf (vs.map leafNode) t = some none ∧ gradOf (vs.map leafNode) t = none := by
  simp [dataOf, historyOf, gradOf, hv, leafNode]

/-- for all sizes, data and parameters there is a state in which training can start -/
theorem training_exists (m k : Nat) (ds : List (Nat × Act)) (a b θ : Nat → Nat → ℝ) (hm : 0 < m) (hk : 0 < k) (hd : ∀ d ∈ ds, 0 < d.1) :
    Training ((startData m k ds a b θ).map leafNode) ⟨startLayers 2 ds⟩ 0 1 m k ds a b θ := by
  have hok : ∀ v ∈ startData m k ds a b θ, WF v ∧ Pos v.shape := by
    intro v hv
    simp only [startData, List.mem_cons] at hv
    rcases hv with rfl | rfl | hv
    · exact ⟨(matData_matrix m k a).2.1, by simp [matData, Pos, hm, hk]⟩
    · exact ⟨(matData_matrix m _ b).2.1, by simp [matData, Pos, hm, lastWidth_pos ds k hk hd]⟩
    · exact paramData_ok θ ds k 0 hk hd v hv
  have hget : ∀ t < 2 + 2 * ds.length, ∃ v, (startData m k ds a b θ)[t]? = some v := by
    intro t ht
    exact ⟨_, List.getElem?_eq_getElem (by simp only [startData, List.length_cons, paramData_length]; omega)⟩
  refine ⟨⟨_, by simpa using runOps_new _ [] fun v hv => (hok v hv).1⟩, ⟨startLayers_are θ _ ds k 0 2 hd fun t v hv => ?_, ?_⟩,
    ⟨_, (dataOf_leaves rfl).1, matData_matrix m k a⟩, ⟨_, (dataOf_leaves (t := 1) rfl).1, matData_matrix m _ b⟩, ?_⟩
  · refine (dataOf_leaves ?_).1
    rw [Nat.add_comm]
    exact hv
  · have : ∀ (ds : List (Nat × Act)) (p : Nat), (startLayers p ds).map (·.activation) = ds.map fun d => d.2.code := by
      intro ds
      induction ds with
      | nil => intro p; rfl
      | cons d ds ih => intro p; simp [startLayers, ih]
    exact this ds 2
  · rw [startLayers_params]
    refine C50_fresh _ _ _ _ List.nodup_range' (by simp [List.mem_range'_1]) (by simp [List.mem_range'_1]) fun s hs => ?_
    have hs' : s < 2 + 2 * ds.length := by
      simp only [List.mem_cons, List.mem_range'_1] at hs
      omega
    obtain ⟨v, hv⟩ := hget s hs'
    obtain ⟨h1, h2, h3⟩ := dataOf_leaves hv
    obtain ⟨h4, h5⟩ := hok v (List.mem_of_getElem? hv)
    exact ⟨v, h1, h4, h5, h2, h3⟩

end

end RL
