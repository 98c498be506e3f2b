import Verif.Lemmas.TrainLoss

/-! Helper lemmas: the parameters of a network, before and after a step -/

namespace RL

open Spec

theorem Spec.Matrix.array {v : Raw ℝ} {m n : Nat} {f : Nat → ℝ} (hv : Matrix v m n fun i j => f (i * n + j)) {c : Nat} (hc : c < v.array.length) :
    v.array[c]? = some (f c) := by
  obtain ⟨hs, hw, he⟩ := hv
  rw [WF, hs] at hw
  simp only [List.prod_cons, List.prod_nil, mul_one] at hw
  rw [hw] at hc
  have hn : 0 < n := Nat.pos_of_ne_zero fun h => by rw [h] at hc; omega
  have h1 : c / n < m := (Nat.div_lt_iff_lt_mul hn).2 hc
  have h2 : c % n < n := Nat.mod_lt _ hn
  have h3 := he _ h1 _ h2
  have h4 : c / n * n + c % n = c := Nat.div_add_mod' c n
  rw [Raw.elem?, hs, rowMajor_pair, h4] at h3
  rw [h3]
  simp only [h4]

theorem Spec.Row.array {v : Raw ℝ} {n : Nat} {f : Nat → ℝ} (hv : Row v n f) {c : Nat} (hc : c < v.array.length) : v.array[c]? = some (f c) := by
  obtain ⟨hs, hw, he⟩ := hv
  refine he c ?_
  rw [WF] at hw
  rw [hw] at hc
  rcases hs with hs | hs <;> simpa [hs] using hc

theorem layersAre_flat {h : Heap ℝ} {θ : Nat → Nat → ℝ} : ∀ {ls : List (Linear ℝ)} {ds : List (Nat × Act)} {k q : Nat},
    LayersAre h k ls (layerFns θ q ds) → ∀ t s, (⟨ls⟩ : Mlp ℝ).params[t]? = some s →
    ∃ v, dataOf h s = some v ∧ WF v ∧ ∀ c < v.array.length, v.array[c]? = some (θ (q + t) c) := by
  intro ls
  induction ls with
  | nil => intro ds k q _ t s hs; simp [Mlp.params] at hs
  | cons l ls ih =>
    intro ds k q hl t s hs
    cases ds with
    | nil => exact hl.elim
    | cons d ds =>
      obtain ⟨n, f⟩ := d
      obtain ⟨⟨_, _, wv, bv, hw, hb, mw, rb⟩, hl'⟩ := hl
      rw [params_cons] at hs
      match t, hs with
      | 0, hs => cases hs; exact ⟨wv, hw, mw.2.1, fun c hc => mw.array hc⟩
      | 1, hs => cases hs; exact ⟨bv, hb, rb.2.1, fun c hc => rb.array hc⟩
      | t + 2, hs =>
        obtain ⟨v, h1, h2, h3⟩ := ih hl' t s hs
        exact ⟨v, h1, h2, fun c hc => by rw [h3 c hc]; congr 2; omega⟩

theorem matrix_of {v : Raw ℝ} {m n : Nat} {f : Nat → ℝ} (hs : v.shape = [m, n]) (hw : WF v) (he : ∀ c < v.array.length, v.array[c]? = some (f c)) :
    Matrix v m n fun i j => f (i * n + j) := by
  refine ⟨hs, hw, fun i hi j hj => ?_⟩
  have := rowMajor_lt (inRange2.2 ⟨hi, hj⟩)
  rw [rowMajor_pair] at this
  rw [Raw.elem?, hs, rowMajor_pair]
  refine he _ ?_
  rw [show v.array.length = v.shape.prod from hw, hs]
  exact this

theorem layersAre_update {h h' : Heap ℝ} {θ θ' : Nat → Nat → ℝ} : ∀ {ls ls' : List (Linear ℝ)} {ds : List (Nat × Act)} {k q : Nat},
    LayersAre h k ls (layerFns θ q ds) → ls'.map (·.activation) = ls.map (·.activation) →
    (∀ t s s' v, (⟨ls⟩ : Mlp ℝ).params[t]? = some s → (⟨ls'⟩ : Mlp ℝ).params[t]? = some s' → dataOf h s = some v →
      ∃ v', dataOf h' s' = some v' ∧ v'.shape = v.shape ∧ WF v' ∧ ∀ c < v'.array.length, v'.array[c]? = some (θ' (q + t) c)) →
    LayersAre h' k ls' (layerFns θ' q ds) := by
  intro ls
  induction ls with
  | nil =>
    intro ls' ds k q hl ha _
    cases ds with
    | nil =>
      cases ls' with
      | nil => exact hl
      | cons => simp at ha
    | cons => exact hl.elim
  | cons l ls ih =>
    intro ls' ds k q hl ha hp
    cases ds with
    | nil => exact hl.elim
    | cons d ds =>
      obtain ⟨n, f⟩ := d
      obtain ⟨⟨hn, hact, wv, bv, hw, hb, mw, rb⟩, hl'⟩ := hl
      cases ls' with
      | nil => simp at ha
      | cons l' ls' =>
        simp only [List.map_cons, List.cons.injEq] at ha
        obtain ⟨wv', hw', sw, ww, ew⟩ := hp 0 _ _ wv rfl rfl hw
        obtain ⟨bv', hb', sb, wb, eb⟩ := hp 1 _ _ bv rfl rfl hb
        refine ⟨⟨hn, by rw [ha.1]; exact hact, wv', bv', hw', hb', matrix_of (sw.trans mw.1) ww ew, by rw [sb]; exact rb.1, wb, ?_⟩, ?_⟩
        · intro j hj
          refine eb j ?_
          rw [show bv'.array.length = bv'.shape.prod from wb, sb]
          rcases rb.1 with hs | hs <;> simpa [hs] using hj
        · refine ih hl' ha.2 fun t s s' v h1 h2 h3 => ?_
          obtain ⟨v', e1, e2, e3, e4⟩ := hp (t + 2) s s' v h1 h2 h3
          exact ⟨v', e1, e2, e3, fun c hc => by rw [e4 c hc]; congr 2; omega⟩

theorem paramVals_of {H : Heap ℝ} {V : Nat → List Nat → ℝ} {θ θ' : Nat → Nat → ℝ} : ∀ {ls : List (Linear ℝ)} {ds : List (Nat × Act)} {k q : Nat},
    LayersAre H k ls (layerFns θ q ds) →
    (∀ t s v, (⟨ls⟩ : Mlp ℝ).params[t]? = some s → dataOf H s = some v → ∀ idx, InRange v.shape idx →
      V s idx = θ' (q + t) (rowMajor v.shape idx)) → ParamVals H V θ' k q ls ds := by
  intro ls
  induction ls with
  | nil => intro ds k q _ _; cases ds <;> trivial
  | cons l ls ih =>
    intro ds k q hl hp
    cases ds with
    | nil => exact hl.elim
    | cons d ds =>
      obtain ⟨n, f⟩ := d
      obtain ⟨⟨hn, _, wv, bv, hw, hb, mw, rb⟩, hl'⟩ := hl
      refine ⟨fun i hi j hj => ?_, fun j hj => ⟨fun hs => ?_, fun hs => ?_⟩, ih hl' fun t s v h1 h2 idx hi => ?_⟩
      · have := hp 0 _ wv rfl hw [i, j] (by rw [mw.1]; exact inRange2.2 ⟨hi, hj⟩)
        rw [this, mw.1, rowMajor_pair]
        rfl
      · rw [shapeOf_data hb] at hs
        have := hp 1 _ bv rfl hb [j] (by rw [hs]; exact .cons hj .nil)
        rw [this, hs]
        simp [rowMajor]
      · rw [shapeOf_data hb] at hs
        have := hp 1 _ bv rfl hb [0, j] (by rw [hs]; exact inRange2.2 ⟨by omega, hj⟩)
        rw [this, hs, rowMajor_pair]
        simp
      · rw [hp (t + 2) s v h1 h2 idx hi]
        congr 1
        omega

/-- an SGD step in detail -/
def StepNodes (h h' : Heap ℝ) (lr : ℝ) (p q : Nat) : Prop :=
  ∃ v g d m dv mv, dataOf h p = some v ∧ gradOf h p = some g ∧ h.length ≤ d ∧ h.length ≤ m ∧ h.length ≤ q ∧
    dv.shape = v.shape ∧ WF dv ∧ mv.shape = v.shape ∧ WF mv ∧ h'[d]? = some (leafNode dv) ∧
    h'[m]? = some ⟨mv, none, some ⟨[d], .neg⟩⟩ ∧ h'[q]? = some ⟨sgdUpdate lr v g, none, some ⟨[p, m], .add⟩⟩

theorem sgdParam_run {h : Heap ℝ} {s p : Nat} {lr : ℝ} {v g : Raw ℝ} (hs : dataOf h s = some (Raw.scalar lr)) (hv : dataOf h p = some v)
    (hg : gradOf h p = some g) (wv : WF v) (wg : WF g) (hp : Pos v.shape) (hsh : g.shape = v.shape) :
    sgdParam h s p = .ok (h ++ [leafNode ⟨g.array.map (lr * ·), g.shape⟩, ⟨⟨(g.array.map (lr * ·)).map (fun v => -v), g.shape⟩, none, some ⟨[h.length], .neg⟩⟩,
      ⟨sgdUpdate lr v g, none, some ⟨[p, h.length + 1], .add⟩⟩], h.length + 2) := by
  obtain ⟨n, gn, i, hn, hi, hgn, rfl⟩ := gradOf_inv hg
  obtain ⟨n', hn', rfl⟩ := dataOf_eq.1 hv
  rw [hn] at hn'
  cases hn'
  obtain ⟨sn, hsn, hsv⟩ := dataOf_eq.1 hs
  refine sgdParam_mk hn hi hgn hsn ?_ ?_ ?_
  · rw [hsv]
    simp [mulRaw, Raw.scalar, idxR, TL.leftScalarMul, TL.tensor, TL.shape]
  · exact negRaw_raw (by simpa [WF] using wg)
  · rw [addRaw_same (r := ⟨(gn.val.array.map (lr * ·)).map (fun v => -v), gn.val.shape⟩) wv (by simpa [WF] using wg) hsh.symm hp]
    simp [sgdUpdate, List.map_map, List.zipWith_map_right, Function.comp_def]

theorem sgdParams_run {s : Nat} {lr : ℝ} : ∀ {ps : List Nat} {h : Heap ℝ}, h.Good → dataOf h s = some (Raw.scalar lr) →
    (∀ p ∈ ps, ∃ v g, dataOf h p = some v ∧ gradOf h p = some g ∧ WF v ∧ WF g ∧ Pos v.shape ∧ g.shape = v.shape) →
    ∃ ns qs, sgdParams h s ps = .ok (h ++ ns, qs) ∧ List.Forall₂ (StepNodes h (h ++ ns) lr) ps qs := by
  intro ps
  induction ps with
  | nil => intro h _ _ _; exact ⟨[], [], by simp [sgdParams], .nil⟩
  | cons p ps ih =>
    intro h hgood hs hps
    obtain ⟨v, g, hv, hg, wv, wg, pv, hsh⟩ := hps p (by simp)
    have e1 := sgdParam_run hs hv hg wv wg pv hsh
    obtain ⟨o1, hrun⟩ := sgdParam_runOps e1
    have hgood' := (runOps_frame hgood hrun).2
    obtain ⟨ns, qs, e2, h2⟩ := ih hgood' (dataOf_append hs) (by
      intro r hr
      obtain ⟨v', g', h1, h2, h3⟩ := hps r (by simp [hr])
      refine ⟨v', g', dataOf_append h1, ?_, h3⟩
      obtain ⟨rn, hrn, _⟩ := dataOf_eq.1 h1
      rw [gradOf_append hgood (getElem?_lt hrn)]
      exact h2)
    refine ⟨_, (h.length + 2) :: qs, by rw [sgdParams_cons, e1, R.bind_ok]; simp only [e2, R.bind_ok]; rw [List.append_assoc]; rfl,
      .cons ⟨v, g, h.length, h.length + 1, ⟨g.array.map (lr * ·), g.shape⟩, ⟨(g.array.map (lr * ·)).map (fun v => -v), g.shape⟩, hv, hg, le_rfl, by omega, by omega, hsh, by simpa [WF] using wg, hsh, by simpa [WF] using wg,
        ?_, ?_, ?_⟩ ?_⟩
    · simp
    · simp
    · simp
    · have hmem : ∀ r ∈ ps, ∃ v' g', dataOf h r = some v' ∧ gradOf h r = some g' := by
        intro r hr
        obtain ⟨v', g', h1, h2, _⟩ := hps r (by simp [hr])
        exact ⟨v', g', h1, h2⟩
      clear ih hps e2
      rw [← List.append_assoc]
      induction h2 with
      | nil => exact .nil
      | @cons r q rs qs h3 _ ih =>
        refine .cons ?_ (ih fun r hr => hmem r (by simp [hr]))
        obtain ⟨v1, g1, d, m, dv, mv, h5, h6, h7, h8, h9, h10⟩ := h3
        obtain ⟨v2, g2, h11, h12⟩ := hmem r (by simp)
        rw [dataOf_append h11] at h5
        cases h5
        obtain ⟨rn, hrn, _⟩ := dataOf_eq.1 h11
        rw [gradOf_append hgood (getElem?_lt hrn), h12] at h6
        cases h6
        simp only [List.length_append, List.length_cons, List.length_nil] at h7 h8 h9
        exact ⟨_, _, d, m, dv, mv, h11, h12, by omega, by omega, by omega, h10⟩

theorem stepNodes_nodup {h h' : Heap ℝ} {lr : ℝ} : ∀ {ps qs : List Nat}, List.Forall₂ (StepNodes h h' lr) ps qs → ps.Nodup → qs.Nodup := by
  intro ps qs hf
  induction hf with
  | nil => intro _; exact .nil
  | @cons p q ps qs h1 h2 ih =>
    intro hn
    rw [List.nodup_cons] at hn ⊢
    refine ⟨fun hq => hn.1 ?_, ih hn.2⟩
    clear ih hn
    induction h2 with
    | nil => simp at hq
    | @cons p' q' ps qs h3 _ ih =>
      rcases List.mem_cons.1 hq with rfl | hq
      · obtain ⟨_, _, _, _, _, _, _, _, _, _, _, _, _, _, _, _, _, e1⟩ := h1
        obtain ⟨_, _, _, _, _, _, _, _, _, _, _, _, _, _, _, _, _, e2⟩ := h3
        rw [e1] at e2
        simp at e2
        simp [e2.2.1]
      · exact List.mem_cons_of_mem _ (ih hq)

end RL
