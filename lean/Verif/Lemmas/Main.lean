import Verif.Lemmas.TrainStart
import Verif.Lemmas.MachineTrain
import Verif.Lemmas.TrainShapes
import Verif.Props.Param
import Verif.Props.Machine2

/-!
# What `main` starts training with
-/

namespace RL

open Spec

variable {T : Type}

/-- The tensor of shape `s` made of the random numbers from number `o` on. -/
def drawn (draw : Nat → T) (o : Nat) (s : List Nat) : Raw T := ⟨(List.range s.prod).map fun i => draw (o + i), s⟩

/-- The parameters of a network, the first one made of the random numbers from number `o` on. -/
def drawnData (draw : Nat → T) : Nat → Nat → List (Nat × Act) → List (Raw T)
  | _, _, [] => []
  | o, k, (n, _) :: ds => drawn draw o [k, n] :: drawn draw (o + k * n) [1, n] :: drawnData draw (o + (k * n + n)) n ds

/-- The layers with parameters at `p`. -/
def layersFrom (g : Act → Activation T) : Nat → List (Nat × Act) → List (Linear T)
  | _, [] => []
  | p, (_, f) :: ds => ⟨p, p + 1, g f⟩ :: layersFrom g (p + 2) ds

theorem drawn_wf (draw : Nat → T) (o : Nat) (s : List Nat) : WF (drawn draw o s) := by simp [WF, drawn]

theorem drawnData_length (draw : Nat → T) : ∀ (ds : List (Nat × Act)) (o k : Nat), (drawnData draw o k ds).length = 2 * ds.length := by
  intro ds
  induction ds with
  | nil => intros; rfl
  | cons d ds ih =>
    intro o k
    simp only [drawnData, List.length_cons, ih]
    omega

theorem drawnData_ok {draw : Nat → T} {Q : List Nat → Prop} : ∀ {ds : List (Nat × Act)} {o k : Nat}, (∀ s ∈ paramShapes k ds, Q s) →
    ∀ v ∈ drawnData draw o k ds, WF v ∧ Q v.shape := by
  intro ds
  induction ds with
  | nil => intro o k _ v hv; cases hv
  | cons d ds ih =>
    obtain ⟨n, f⟩ := d
    intro o k hQ v hv
    simp only [drawnData, List.mem_cons] at hv
    rcases hv with rfl | rfl | hv
    · exact ⟨drawn_wf _ _ _, hQ [k, n] (by simp [paramShapes])⟩
    · exact ⟨drawn_wf _ _ _, hQ [1, n] (by simp [paramShapes])⟩
    · exact ih (fun s hs => hQ s (by simp [paramShapes, hs])) v hv

theorem paramStart_end (k : Nat) (ds : List (Nat × Act)) (n : Nat) (f : Act) :
    paramStart k ((n, f) :: ds) (2 * (ds.length + 1)) = k * n + n + paramStart n ds (2 * ds.length) := rfl

/-- `main` without its training. -/
def startMain (draw : Nat → T) [One T] (m k : Nat) (ds : List (Nat × Act)) : List (Raw T) :=
  drawnData draw 0 k ds ++ [drawn draw (paramStart k ds (2 * ds.length)) [m, k], Raw.newWithFiller [m, lastWidth k ds] 1]

theorem layersFrom_params (g : Act → Activation T) : ∀ (ds : List (Nat × Act)) (p : Nat),
    (⟨layersFrom g p ds⟩ : Mlp T).params = List.range' p (2 * ds.length) := by
  intro ds
  induction ds with
  | nil => intro p; rfl
  | cons d ds ih =>
    intro p
    rw [layersFrom, (C46_params _ _).2, ih]
    simp [Nat.mul_add, List.range'_succ]

theorem layersFrom_acts (g : Act → Activation T) : ∀ (ds : List (Nat × Act)) (p : Nat),
    (layersFrom g p ds).map (·.activation) = ds.map fun d => g d.2 := by
  intro ds
  induction ds with
  | nil => intro p; rfl
  | cons d ds ih => intro p; simp [layersFrom, ih]

section

variable [Zero T] [One T] [Add T] [Mul T] [Sub T] [Neg T] [LT T] [DecidableLT T] [LE T] [DecidableLE T] [RealFn T]

theorem sampleVector_ok (draw : Nat → T) (h : Heap T) (o : Nat) (s : List Nat) :
    sampleVector draw h o s = .ok (h ++ [leafNode (drawn draw o s)], o + s.prod, h.length) := by
  have := Raw.new_ok (drawn_wf draw o s)
  simp only [drawn] at this
  simp only [sampleVector, this, R.bind_ok]
  rfl

theorem sampleVectorU_ok (p : Profile) (draw : Nat → T) (h : Heap T) (o : Nat) {s : List Nat} (hs : Fits s) :
    sampleVectorU p draw h o s = .ok (h ++ [leafNode (drawn draw o s)], o + s.prod, h.length) := by
  have h1 := Raw.new_ok (drawn_wf draw o s)
  simp only [drawn] at h1
  have h2 : Raw.newU p ((List.range s.prod).map fun i => draw (o + i)) s = .ok (drawn draw o s) := (newU_into p _ _).ok _ (by rw [newU_back hs, h1]; rfl)
  simp only [sampleVectorU, (prodU_into p _).ok _ (prodU_fits hs), R.bind_ok, h2]
  rfl

theorem linear_new (w b : Nat) (f : Act) : Linear.new w b (f.arg (T := T)) = ⟨w, b, f.run⟩ := by cases f <;> rfl

theorem linear_newU (p : Profile) (w b : Nat) (f : Act) : Linear.new w b (f.argU (T := T) p) = ⟨w, b, f.runU p⟩ := by cases f <;> rfl

theorem sampleLayers_ok (draw : Nat → T) : ∀ (ds : List (Nat × Act)) (h : Heap T) (o k : Nat),
    sampleLayers draw h o k (ds.map fun d => (d.1, d.2.arg)) =
      .ok (h ++ (drawnData draw o k ds).map leafNode, o + paramStart k ds (2 * ds.length), layersFrom Act.run h.length ds) := by
  intro ds
  induction ds with
  | nil => intro h o k; simp [sampleLayers, drawnData, paramStart, layersFrom]
  | cons d ds ih =>
    obtain ⟨n, f⟩ := d
    intro h o k
    simp only [List.map_cons, sampleLayers, sampleVector_ok, R.bind_ok]
    rw [ih]
    simp only [R.bind_ok, linear_new, List.length_cons, paramStart_end, drawnData, layersFrom, List.map_cons, R.pure_eq_ok]
    simp [Nat.add_assoc]

theorem sampleLayersU_ok (p : Profile) (draw : Nat → T) : ∀ (ds : List (Nat × Act)) (h : Heap T) (o k : Nat), (∀ s ∈ paramShapes k ds, Fits s) →
    sampleLayersU p draw h o k (ds.map fun d => (d.1, d.2.argU p)) =
      .ok (h ++ (drawnData draw o k ds).map leafNode, o + paramStart k ds (2 * ds.length), layersFrom (Act.runU p) h.length ds) := by
  intro ds
  induction ds with
  | nil => intro h o k _; simp [sampleLayersU, drawnData, paramStart, layersFrom]
  | cons d ds ih =>
    obtain ⟨n, f⟩ := d
    intro h o k hs
    simp only [List.map_cons, sampleLayersU, sampleVectorU_ok p draw _ _ (hs [k, n] (by simp [paramShapes])),
      sampleVectorU_ok p draw _ _ (hs [1, n] (by simp [paramShapes])), R.bind_ok]
    rw [ih _ _ _ fun s h => hs s (by simp [paramShapes, h])]
    simp only [R.bind_ok, linear_newU, List.length_cons, paramStart_end, drawnData, layersFrom, List.map_cons, R.pure_eq_ok]
    simp [Nat.add_assoc]

theorem runMain_eq (draw : Nat → T) (m k : Nat) (ds : List (Nat × Act)) (n : Nat) (lr : T) :
    runMain draw m k (ds.map fun d => (d.1, d.2.arg)) (lastWidth k ds) n lr =
      train ⟨layersFrom Act.run 0 ds⟩ ((startMain draw m k ds).map leafNode) (2 * ds.length) (2 * ds.length + 1) lr n := by
  simp only [runMain, sampleLayers_ok, R.bind_ok, sampleVector_ok, startMain, Heap.leaf, Heap.alloc]
  simp [drawnData_length, leafNode]

theorem runMainU_eq (p : Profile) (draw : Nat → T) (m k : Nat) (ds : List (Nat × Act)) (n : Nat) (lr : T)
    (hs : ∀ s ∈ [m, k] :: [m, lastWidth k ds] :: paramShapes k ds, Fits s) :
    runMainU p draw m k (ds.map fun d => (d.1, d.2.argU p)) (lastWidth k ds) n lr =
      trainU p ⟨layersFrom (Act.runU p) 0 ds⟩ ((startMain draw m k ds).map leafNode) (2 * ds.length) (2 * ds.length + 1) lr n := by
  simp only [runMainU, sampleLayersU_ok p draw ds _ _ k fun s h => hs s (by simp [h]), R.bind_ok, sampleVectorU_ok p draw _ _ (hs [m, k] (by simp)),
    (newWithFillerU_into p _ _).ok _ (newWithFillerU_back (hs [m, lastWidth k ds] (by simp))), startMain, Heap.leaf, Heap.alloc]
  simp [drawnData_length, leafNode]

end

/-! ## Over the real numbers: training can start -/

theorem act_code (f : Act) : (f.run : Activation ℝ) = f.code := by cases f <;> rfl

theorem drawn_row (draw : Nat → ℝ) (o n : Nat) : Row (drawn draw o [1, n]) n fun j => draw (o + j) := by
  refine ⟨Or.inr rfl, drawn_wf _ _ _, fun j hj => ?_⟩
  rw [drawn, List.getElem?_map, List.getElem?_range (by simpa using hj)]
  rfl

theorem drawn_matrix (draw : Nat → ℝ) (o m n : Nat) : Matrix (drawn draw o [m, n]) m n fun i j => draw (o + (i * n + j)) := by
  refine ⟨rfl, drawn_wf _ _ _, fun i hi j hj => ?_⟩
  simp only [Raw.elem?, rowMajor_pair, drawn, List.getElem?_map]
  rw [List.getElem?_range (by simpa using mul_add_lt hi hj)]
  rfl

theorem ones_matrix (m n : Nat) : Matrix (Raw.newWithFiller [m, n] (1 : ℝ)) m n fun _ _ => 1 := by
  refine ⟨rfl, by simp [WF, Raw.newWithFiller], fun i hi j hj => ?_⟩
  have := mul_add_lt hi hj
  simp [Raw.elem?, rowMajor_pair, Raw.newWithFiller, List.getElem?_replicate, this]

theorem layersFrom_are (draw : Nat → ℝ) (θ : Nat → Nat → ℝ) (h : Heap ℝ) : ∀ (ds : List (Nat × Act)) (o k q p : Nat), (∀ d ∈ ds, 0 < d.1) →
    (∀ t v, (drawnData draw o k ds)[t]? = some v → dataOf h (p + t) = some v) →
    (∀ r < 2 * ds.length, ∀ c, θ (q + r) c = draw (o + (paramStart k ds r + c))) →
    LayersAre h k (layersFrom Act.run p ds) (layerFns θ q ds) := by
  intro ds
  induction ds with
  | nil => intros; trivial
  | cons d ds ih =>
    obtain ⟨n, f⟩ := d
    intro o k q p hd hh hθ
    have h0 : ∀ c, θ q c = draw (o + c) := fun c => by simpa [paramStart] using hθ 0 (by simp) c
    have h1 : ∀ c, θ (q + 1) c = draw (o + k * n + c) := fun c => by simpa [paramStart, Nat.add_assoc] using hθ 1 (by simp only [List.length_cons]; omega) c
    refine ⟨⟨hd (n, f) (by simp), act_code f ▸ acts_code f, _, _, hh 0 _ rfl, hh 1 _ rfl, ?_, ?_⟩, ?_⟩
    · have := drawn_matrix draw o k n
      simp only [← h0] at this
      exact this
    · have := drawn_row draw (o + k * n) n
      simp only [← h1] at this
      exact this
    · refine ih (o + (k * n + n)) n (q + 2) (p + 2) (fun d hd' => hd d (by simp [hd'])) (fun t v hv => ?_) fun r hr c => ?_
      · have := hh (t + 2) v hv
        rwa [show p + (t + 2) = p + 2 + t by omega] at this
      · have := hθ (r + 2) (by simp only [List.length_cons]; omega) c
        rw [show q + (r + 2) = q + 2 + r by omega] at this
        rw [this, paramStart]
        congr 1
        omega

theorem paramShapes_pos : ∀ {ds : List (Nat × Act)} {k : Nat}, 0 < k → (∀ d ∈ ds, 0 < d.1) → ∀ s ∈ paramShapes k ds, Pos s := by
  intro ds
  induction ds with
  | nil => intro k _ _ s hs; cases hs
  | cons d ds ih =>
    obtain ⟨n, f⟩ := d
    intro k hk hd s hs
    have hn : 0 < n := hd (n, f) (by simp)
    simp only [paramShapes, List.mem_cons] at hs
    rcases hs with rfl | rfl | hs
    · simp [Pos, hk, hn]
    · simp [Pos, hn]
    · exact ih hn (fun d hd' => hd d (by simp [hd'])) s hs

theorem startMain_training (draw : Nat → ℝ) (m k : Nat) (ds : List (Nat × Act)) (hm : 0 < m) (hk : 0 < k) (hd : ∀ d ∈ ds, 0 < d.1) :
    Training ((startMain draw m k ds).map leafNode) ⟨layersFrom Act.run 0 ds⟩ (2 * ds.length) (2 * ds.length + 1) m k ds
      (drawnInput draw k ds) (fun _ _ => 1) (drawnParams draw k ds) := by
  have hlen := drawnData_length draw ds 0 k
  have hok : ∀ v ∈ startMain draw m k ds, WF v ∧ Pos v.shape := by
    intro v hv
    simp only [startMain, List.mem_append, List.mem_cons, List.not_mem_nil, or_false] at hv
    rcases hv with hv | rfl | rfl
    · exact drawnData_ok (paramShapes_pos hk hd) v hv
    · exact ⟨drawn_wf _ _ _, by simp [drawn, Pos, hm, hk]⟩
    · exact ⟨(ones_matrix m _).2.1, by simp [Raw.newWithFiller, Pos, hm, lastWidth_pos ds k hk hd]⟩
  have hget : ∀ t < 2 + 2 * ds.length, ∃ v, (startMain draw m k ds)[t]? = some v := by
    intro t ht
    exact ⟨_, List.getElem?_eq_getElem (by simp [startMain, hlen]; omega)⟩
  have hx : (startMain draw m k ds)[2 * ds.length]? = some (drawn draw (paramStart k ds (2 * ds.length)) [m, k]) := by
    rw [startMain, List.getElem?_append_right (by omega), hlen, Nat.sub_self]
    rfl
  have hy : (startMain draw m k ds)[2 * ds.length + 1]? = some (Raw.newWithFiller [m, lastWidth k ds] 1) := by
    rw [startMain, List.getElem?_append_right (by omega), hlen, Nat.add_sub_cancel_left]
    rfl
  refine ⟨⟨_, by simpa using runOps_new _ [] fun v hv => (hok v hv).1⟩,
    ⟨layersFrom_are draw _ _ ds 0 k 0 0 hd (fun t v hv => (dataOf_leaves ?_).1) fun r _ c => by simp [drawnParams], ?_⟩,
    ⟨_, (dataOf_leaves hx).1, drawn_matrix _ _ _ _⟩, ⟨_, (dataOf_leaves hy).1, ones_matrix m _⟩, ?_⟩
  · rw [Nat.zero_add, startMain, List.getElem?_append_left (getElem?_lt hv), hv]
  · rw [layersFrom_acts]
    exact List.map_congr_left fun d _ => act_code d.2
  · rw [layersFrom_params]
    refine C50_fresh _ _ _ _ List.nodup_range' (by simp [List.mem_range'_1]) (by simp [List.mem_range'_1]) fun s hs => ?_
    have hs' : s < 2 + 2 * ds.length := by
      simp only [List.mem_cons, List.mem_range'_1] at hs
      omega
    obtain ⟨v, hv⟩ := hget s hs'
    obtain ⟨h1, h2, h3⟩ := dataOf_leaves hv
    obtain ⟨h4, h5⟩ := hok v (List.mem_of_getElem? hv)
    exact ⟨v, h1, h4, h5, h2, h3⟩

/-! ## For every type of elements -/

section

variable [Zero T] [One T] [Add T] [Mul T] [Sub T] [Neg T] [LT T] [DecidableLT T] [LE T] [DecidableLE T] [RealFn T]

theorem forall2_true {α β : Type _} : ∀ {l : List α} {l' : List β}, l.length = l'.length → List.Forall₂ (fun _ _ => True) l l' := by
  intro l
  induction l with
  | nil => intro l' h; cases l' with
    | nil => exact .nil
    | cons => cases h
  | cons a l ih => intro l' h; cases l' with
    | nil => cases h
    | cons b l' => exact .cons trivial (ih (Nat.succ.inj h))

theorem drawn_rel (draw : Nat → T) {S : Type} (draw' : Nat → S) (o : Nat) (s : List Nat) :
    NodeRel (fun _ => True) (fun _ _ => True) (leafNode (drawn draw o s)) (leafNode (drawn draw' o s)) :=
  ⟨⟨forall2_true (by simp [leafNode, drawn]), rfl⟩, rfl, rfl, by simp [leafNode]⟩

theorem drawnData_rel (draw : Nat → T) {S : Type} (draw' : Nat → S) : ∀ (ds : List (Nat × Act)) (o k : Nat),
    HeapRel (fun _ => True) (fun _ _ => True) ((drawnData draw o k ds).map leafNode) ((drawnData draw' o k ds).map leafNode) := by
  intro ds
  induction ds with
  | nil => intro o k; exact .nil
  | cons d ds ih => intro o k; exact .cons (drawn_rel ..) (.cons (drawn_rel ..) (ih _ _))

theorem startMain_rel (draw : Nat → T) (draw' : Nat → ℝ) (m k : Nat) (ds : List (Nat × Act)) :
    HeapRel (fun _ => True) (fun _ _ => True) ((startMain draw m k ds).map leafNode) ((startMain draw' m k ds).map leafNode) := by
  simp only [startMain, List.map_append, HeapRel]
  refine List.rel_append (drawnData_rel draw draw' ds 0 k) (.cons (drawn_rel ..) (.cons ⟨⟨forall2_true ?_, rfl⟩, rfl, rfl, by simp [leafNode]⟩ .nil))
  simp [leafNode, Raw.newWithFiller]

theorem act_rel (f : Act) : ActRel (fun _ => True) (fun (_ : T) (_ : ℝ) => True) f.run f.run := by
  obtain ⟨h1, h2, h3⟩ := C72_activations (T := T) (S := ℝ)
  cases f
  · exact h1
  · exact h2
  · exact h3

theorem layersFrom_rel : ∀ (ds : List (Nat × Act)) (p : Nat),
    NetRel (fun _ => True) (fun (_ : T) (_ : ℝ) => True) ⟨layersFrom Act.run p ds⟩ ⟨layersFrom Act.run p ds⟩ := by
  intro ds
  induction ds with
  | nil => intro p; exact .nil
  | cons d ds ih => intro p; exact .cons ⟨rfl, rfl, act_rel d.2⟩ (ih _)

theorem startMain_train (draw : Nat → T) (m k : Nat) (ds : List (Nat × Act)) (hm : 0 < m) (hk : 0 < k) (hd : ∀ d ∈ ds, 0 < d.1) (lr : T) (n : Nat) :
    ∃ h' mlp', train ⟨layersFrom Act.run 0 ds⟩ ((startMain draw m k ds).map leafNode) (2 * ds.length) (2 * ds.length + 1) lr n = .ok (h', mlp') := by
  obtain ⟨h1, mlp1, e, _⟩ := C50_actual n _ _ _ _ _ _ _ _ _ _ 0 (startMain_training (fun _ => 0) m k ds hm hk hd)
  have h2 := C72_train _ _ (startMain_rel draw (fun _ => 0) m k ds) _ _ (layersFrom_rel ds 0) (2 * ds.length) (2 * ds.length + 1) lr 0 n
  rw [e] at h2
  cases e' : train ⟨layersFrom Act.run 0 ds⟩ ((startMain draw m k ds).map leafNode) (2 * ds.length) (2 * ds.length + 1) lr n with
  | ok r => exact ⟨r.1, r.2, rfl⟩
  | error f => rw [e'] at h2; cases h2

/-! ## With 64-bit numbers -/

theorem good_leaves : ∀ (vs : List (Raw T)), Heap.Good (vs.map leafNode) := by
  intro vs t n hn
  rw [List.getElem?_map, Option.map_eq_some_iff] at hn
  obtain ⟨v, _, rfl⟩ := hn
  exact ⟨by simp [leafNode], by simp [leafNode], by simp [leafNode]⟩

theorem sized_leaves {P : List Nat → Prop} {vs : List (Raw T)} (hv : ∀ v ∈ vs, P v.shape) : Sized P (vs.map leafNode) := by
  constructor
  · intro t n hn
    rw [List.getElem?_map, Option.map_eq_some_iff] at hn
    obtain ⟨v, h, rfl⟩ := hn
    exact hv v (List.mem_of_getElem? h)
  · intro t o n m hn ho
    rw [List.getElem?_map, Option.map_eq_some_iff] at hn
    obtain ⟨v, h, rfl⟩ := hn
    cases ho

theorem shapeAt_leaves {vs : List (Raw T)} {t : Nat} {v : Raw T} (h : vs[t]? = some v) : ShapeAt (vs.map leafNode) t v.shape :=
  ⟨leafNode v, by rw [List.getElem?_map, h]; rfl, rfl⟩

theorem layersFrom_sized (draw : Nat → T) (h : Heap T) : ∀ (ds : List (Nat × Act)) (o k p : Nat),
    (∀ t v, (drawnData draw o k ds)[t]? = some v → ShapeAt h (p + t) v.shape) → LayersSized h k (layersFrom Act.run p ds) ds := by
  intro ds
  induction ds with
  | nil => intros; trivial
  | cons d ds ih =>
    obtain ⟨n, f⟩ := d
    intro o k p hh
    refine ⟨hh 0 _ rfl, hh 1 _ rfl, rfl, ih (o + (k * n + n)) n (p + 2) fun t v hv => ?_⟩
    have := hh (t + 2) v hv
    rwa [show p + (t + 2) = p + 2 + t by omega] at this

/-- The sizes of all tensors that training makes. -/
theorem startMain_sized {P : List Nat → Prop} (draw : Nat → T) (m k : Nat) (ds : List (Nat × Act)) (hm : 0 < m) (lr : T) (n : Nat)
    (h0 : P []) (hP : ∀ s ∈ [m, k] :: [m, lastWidth k ds] :: paramShapes k ds, P s) (hw : WidthsIn P m ds) {h' : Heap T} {mlp' : Mlp T}
    (e : train ⟨layersFrom Act.run 0 ds⟩ ((startMain draw m k ds).map leafNode) (2 * ds.length) (2 * ds.length + 1) lr n = .ok (h', mlp')) :
    Grown P ((startMain draw m k ds).map leafNode) h' := by
  have hlen := drawnData_length draw ds 0 k
  refine train_grown hm h0 hw (good_leaves _) (sized_leaves fun v hv => ?_) (layersFrom_sized draw _ ds 0 k 0 fun t v hv => ?_)
    (shapeAt_leaves (v := drawn draw (paramStart k ds (2 * ds.length)) [m, k]) ?_)
    (shapeAt_leaves (v := Raw.newWithFiller [m, lastWidth k ds] 1) ?_) e
  · simp only [startMain, List.mem_append, List.mem_cons, List.not_mem_nil, or_false] at hv
    rcases hv with hv | rfl | rfl
    · exact (drawnData_ok (Q := P) (fun s hs => hP s (by simp [hs])) v hv).2
    · exact hP [m, k] (by simp)
    · exact hP [m, lastWidth k ds] (by simp)
  · rw [Nat.zero_add]
    exact shapeAt_leaves (by rw [startMain, List.getElem?_append_left (getElem?_lt hv), hv])
  · rw [startMain, List.getElem?_append_right (by omega), hlen, Nat.sub_self]
    rfl
  · rw [startMain, List.getElem?_append_right (by omega), hlen, Nat.add_sub_cancel_left]
    rfl

theorem layersFrom_match {A B : Kit T} : ∀ (ds : List (Nat × Act)) (p : Nat), LayersMatch A B (layersFrom A.act p ds) (layersFrom B.act p ds) := by
  intro ds
  induction ds with
  | nil => intro p; exact .nil
  | cons d ds ih => intro p; exact .cons ⟨rfl, rfl, d.2, rfl, rfl⟩ (ih _)

theorem netOf_match {A B : Kit T} (ls : List (Nat × Nat × Act)) : LayersMatch A B (netOf A.act ls).layers (netOf B.act ls).layers := by
  induction ls with
  | nil => exact .nil
  | cons l ls ih => exact .cons ⟨rfl, rfl, l.2.2, rfl, rfl⟩ ih

theorem match_netOf {A B : Kit T} : ∀ {a b : Mlp T}, LayersMatch A B a.layers b.layers → ∃ ls, a = netOf A.act ls ∧ b = netOf B.act ls := by
  have : ∀ {a b : List (Linear T)}, LayersMatch A B a b → ∃ ls, a = (netOf A.act ls).layers ∧ b = (netOf B.act ls).layers := by
    intro a b h
    induction h with
    | nil => exact ⟨[], rfl, rfl⟩
    | @cons l l' a b hl _ ih =>
      obtain ⟨w, c, f, h1, h2⟩ := hl
      obtain ⟨ls, rfl, rfl⟩ := ih
      refine ⟨(l.weights, l.bias, f) :: ls, ?_, ?_⟩
      · show l :: _ = (⟨_, _, _⟩ : Linear T) :: _
        rw [← h1]; rfl
      · show l' :: _ = (⟨_, _, _⟩ : Linear T) :: _
        rw [← h2, ← w, ← c]; rfl
  intro a b h
  obtain ⟨ls, h1, h2⟩ := this h
  exact ⟨ls, congrArg Mlp.mk h1, congrArg Mlp.mk h2⟩

end

theorem dataOf_some {h : Heap T} {i : Nat} {t : Raw T} (e : dataOf h i = some t) : ∃ n, h[i]? = some n ∧ n.val = t := by
  rw [dataOf, Option.map_eq_some_iff] at e
  exact e

theorem lastWidth_mem : ∀ (ds : List (Nat × Act)) (k : Nat), lastWidth k ds = k ∨ ∃ d ∈ ds, lastWidth k ds = d.1 := by
  intro ds
  induction ds with
  | nil => intro k; exact .inl rfl
  | cons d ds ih =>
    intro k
    rcases ih d.1 with h | ⟨d', h1, h2⟩
    · exact .inr ⟨d, by simp, h⟩
    · exact .inr ⟨d', by simp [h1], h2⟩

theorem mainShapes_start {m k : Nat} {ds : List (Nat × Act)} : ∀ s ∈ [m, k] :: [m, lastWidth k ds] :: paramShapes k ds, s ∈ mainShapes m k ds := by
  intro s hs
  simp only [List.mem_cons] at hs
  rcases hs with rfl | rfl | hs
  · simp [mainShapes]
  · rcases lastWidth_mem ds k with h | ⟨d, h1, h2⟩
    · rw [h]; simp [mainShapes]
    · rw [h2]
      simp only [mainShapes, List.mem_cons, List.mem_append, List.mem_map]
      exact .inr (.inr (.inr ⟨d, h1, rfl⟩))
  · simp [mainShapes, hs]

theorem mainShapes_widths {m k : Nat} {ds : List (Nat × Act)} : WidthsIn (· ∈ mainShapes m k ds) m ds := by
  intro d hd
  simp only [mainShapes, List.mem_cons, List.mem_append, List.mem_map]
  exact .inr (.inr (.inr ⟨d, hd, rfl⟩))

theorem mainShapes_pos {m k : Nat} {ds : List (Nat × Act)} (hm : 0 < m) (hk : 0 < k) (hd : ∀ d ∈ ds, 0 < d.1) : ∀ s ∈ mainShapes m k ds, Pos s := by
  intro s hs
  simp only [mainShapes, List.mem_cons, List.mem_append, List.mem_map] at hs
  rcases hs with rfl | rfl | hs | ⟨d, h, rfl⟩
  · simp [Pos]
  · simp [Pos, hm, hk]
  · exact paramShapes_pos hk hd s hs
  · simp [Pos, hm, hd d h]

theorem map_max_pos {s : List Nat} (hs : Pos s) : (s.map (max 1)).prod = s.prod := by
  have : s.map (max 1) = s := by
    conv_rhs => rw [← List.map_id s]
    exact List.map_congr_left fun d hd => by
      have := hs d hd
      simp only [id]; omega
  rw [this]

end RL
