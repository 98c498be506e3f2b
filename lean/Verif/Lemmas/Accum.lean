import Mathlib.Algebra.Group.Defs
import Verif.Lemmas.Region
import Verif.Lemmas.Arith

/-!
# Accumulating contributions of one shape
-/

namespace RL

open Spec

variable {T : Type}

theorem addRaw_same_inv [Zero T] [Add T] {a b v : Raw T} (ha : WF a) (hb : WF b) (hs : a.shape = b.shape)
    (e : addRaw (.raw a) (.raw b) = .ok v) : Pos a.shape ∧ v = ⟨List.zipWith (· + ·) a.array b.array, a.shape⟩ := by
  have hp : Pos a.shape := by
    have e' := e
    unfold addRaw genericBinopRaw at e'
    rw [R.bind_eq_ok] at e'
    obtain ⟨_, _, e'⟩ := e'
    have := forIndices_ok_pos e'
    simpa [TL.shape, ← hs, maxShape_self] using this
  rw [addRaw_same ha hb hs hp] at e
  cases e
  exact ⟨hp, rfl⟩

variable [Zero T] [One T] [Add T] [Mul T] [Sub T] [Neg T] [LT T] [DecidableLT T] [LE T] [DecidableLE T] [RealFn T]

theorem zipWith_wf {s : List Nat} {a b : List T} (ha : a.length = s.prod) (hb : b.length = s.prod) :
    WF (⟨List.zipWith (· + ·) a b, s⟩ : Raw T) := by simp [WF, ha, hb]

/-- Contributions of the shape of the gradient are added elementwise, one after the other. -/
theorem gradAccum_same {s : List Nat} : ∀ {cs : List (Raw T)} {p : Raw T} {o : Option (Raw T)}, (∀ c ∈ cs, c.shape = s ∧ WF c) →
    p.shape = s → WF p → gradAccum (some p) cs = .ok o →
    o = some ⟨cs.foldl (fun a c => List.zipWith (· + ·) a c.array) p.array, s⟩ := by
  intro cs
  induction cs with
  | nil => intro p o _ hp _ e; cases e; subst hp; rfl
  | cons c cs ih =>
    intro p o hcs hp hw e
    rw [gradAccum_cons, R.bind_eq_ok] at e
    obtain ⟨q, e1, e2⟩ := e
    simp only [gradAccumStep, R.bind_eq_ok, R.pure_eq_ok] at e1
    obtain ⟨v, e1, rfl⟩ := e1
    obtain ⟨hc1, hc2⟩ := hcs c (by simp)
    obtain ⟨hpos, rfl⟩ := addRaw_same_inv hw hc2 (hp.trans hc1.symm) e1
    have := ih (p := ⟨List.zipWith (· + ·) p.array c.array, p.shape⟩) (fun d hd => hcs d (by simp [hd])) hp
      (zipWith_wf hw (by rw [hp, ← hc1]; exact hc2)) e2
    rw [this]
    rfl

theorem gradAccum_same_ok {s : List Nat} (hpos : Pos s) : ∀ {cs : List (Raw T)} {p : Raw T}, (∀ c ∈ cs, c.shape = s ∧ WF c) →
    p.shape = s → WF p → ∃ v, gradAccum (some p) cs = .ok (some v) ∧ v.shape = s ∧ WF v := by
  intro cs
  induction cs with
  | nil => intro p _ hp hw; exact ⟨p, rfl, hp, hw⟩
  | cons c cs ih =>
    intro p hcs hp hw
    obtain ⟨hc1, hc2⟩ := hcs c (by simp)
    rw [gradAccum_cons]
    simp only [gradAccumStep]
    rw [addRaw_same hw hc2 (hp.trans hc1.symm) (hp ▸ hpos)]
    exact ih (p := ⟨List.zipWith (· + ·) p.array c.array, p.shape⟩) (fun d hd => hcs d (by simp [hd])) hp
      (zipWith_wf hw (by rw [hp, ← hc1]; exact hc2))

/-- The gradient of a tensor is absent or has the shape of the tensor. -/
def GradFits (h : Heap T) (t : Nat) : Prop :=
  ∀ n g, h[t]? = some n → gradOf h t = some g → g.shape = n.val.shape ∧ WF g

/-- The gradient takes contributions of the shape of the tensor: it is absent, has this shape, or the tensor is a scalar. -/
def GradTakes (h : Heap T) (t : Nat) : Prop :=
  ∀ n g, h[t]? = some n → gradOf h t = some g → WF g ∧ (g.shape = n.val.shape ∨ n.val.shape = [] ∧ Pos g.shape)

theorem GradFits.takes {h : Heap T} {t : Nat} (hf : GradFits h t) : GradTakes h t :=
  fun n g hn hg => ⟨(hf n g hn hg).2, Or.inl (hf n g hn hg).1⟩

theorem bshape_nil (s : List Nat) : bshape s [] = s := by
  simp only [bshape, padLeft, List.length_nil, Nat.max_zero, Nat.sub_self, List.replicate_zero, List.nil_append, Nat.sub_zero, List.append_nil]
  induction s with
  | nil => rfl
  | cons a s ih =>
    simp only [List.length_cons, List.replicate_succ, List.zipWith_cons_cons, ih]
    split <;> simp_all

theorem addRaw_takes {s : List Nat} {p c : Raw T} (hc : c.shape = s ∧ WF c) (hs : Pos s) (hw : WF p)
    (hp : p.shape = s ∨ s = [] ∧ Pos p.shape) :
    ∃ v, addRaw (.raw p) (.raw c) = .ok v ∧ WF v ∧ (v.shape = s ∨ s = [] ∧ Pos v.shape) := by
  rcases hp with hp | ⟨rfl, hp⟩
  · refine ⟨_, addRaw_same hw hc.2 (hp.trans hc.1.symm) (hp ▸ hs), zipWith_wf hw (by rw [hp, ← hc.1]; exact hc.2), Or.inl hp⟩
  · have hcomp : Compatible p.shape c.shape := by
      rw [hc.1]
      simp only [Compatible, padLeft, List.length_nil, Nat.max_zero, Nat.sub_self, List.replicate_zero, List.nil_append, Nat.sub_zero,
        List.append_nil]
      generalize p.shape = q
      induction q with
      | nil => exact .nil
      | cons a q ih => exact .cons (Or.inr (Or.inr rfl)) ih
    have hcp : Pos c.shape := by rw [hc.1]; exact hs
    obtain ⟨v, hv⟩ := genericBinopRaw_raw hw hc.2 hp hcp (fun a b => a + b) hcomp
    obtain ⟨_, h1, h2, _⟩ := genericBinopRaw_inv (l := .raw p) (r := .raw c) hw hc.2 hp hcp hv
    refine ⟨v, hv, h2, Or.inr ⟨rfl, ?_⟩⟩
    rw [h1]
    simp only [TL.shape, hc.1, bshape_nil]
    exact hp

/-- Updates with fitting contributions always succeed and keep gradients fitting. -/
theorem applyUpdates_ok {us : List (Nat × Raw T)} : ∀ {h : Heap T}, h.Good →
    (∀ u ∈ us, ∃ n, h[u.1]? = some n ∧ u.2.shape = n.val.shape ∧ WF u.2 ∧ Pos n.val.shape) →
    (∀ u ∈ us, GradTakes h u.1) → ∃ h', applyUpdates h us = .ok h' := by
  induction us with
  | nil => intro h _ _ _; exact ⟨h, rfl⟩
  | cons u us ih =>
    intro h hg hu hfit
    obtain ⟨t, c⟩ := u
    obtain ⟨n, hn, hc1, hc2, hpos⟩ := hu (t, c) (by simp)
    simp only at hn hc1 hc2
    have hlt := getElem?_lt hn
    have hstep : ∃ h1, applyUpdate h (t, c) = .ok h1 := by
      have hn' : (h.leaf c).1[t]? = some n := by simp [Heap.leaf, Heap.alloc, List.getElem?_append_left hlt, hn]
      have hcg : (h.leaf c).1[h.length]? = some (leafNode c) := by simp [Heap.leaf, Heap.alloc]
      simp only [applyUpdate, updateGrad, Heap.node_eq_ok.2 hn', R.bind_ok]
      cases hgr : n.grad with
      | none => exact ⟨_, rfl⟩
      | some o =>
        have hol := (hg t n hn).grad o hgr
        have hon : (h.leaf c).1[o]? = some h[o] := by simp [Heap.leaf, Heap.alloc, List.getElem?_append_left hol]
        have hfo := hfit (t, c) (by simp) n h[o].val hn (gradOf_some hn hgr (List.getElem?_eq_getElem hol))
        simp only [addT, Heap.node_eq_ok.2 hon, Heap.node_eq_ok.2 hcg, R.bind_ok]
        obtain ⟨v, hv, _⟩ := addRaw_takes (c := (leafNode c).val) ⟨hc1, hc2⟩ hpos hfo.1 hfo.2
        rw [hv]
        exact ⟨_, rfl⟩
    obtain ⟨h1, e1⟩ := hstep
    have hf1 := applyUpdate_frame e1
    obtain ⟨h', e2⟩ := ih (h := h1) (applyUpdate_good e1 hg) (by
      intro u hu'
      obtain ⟨m, hm, h2, h3, h4⟩ := hu u (by simp [hu'])
      obtain ⟨gr, hgr⟩ := hf1.get hm
      exact ⟨_, hgr, h2, h3, h4⟩) (by
      intro u hu' m g hm hgm
      obtain ⟨m', hm', h2, h3, h4⟩ := hu u (by simp [hu'])
      obtain ⟨gr, hgr⟩ := hf1.get hm'
      rw [hm] at hgr
      cases hgr
      by_cases htu : u.1 = t
      · rw [htu] at hm' hgm
        rw [hn] at hm'
        cases hm'
        rcases applyUpdate_self hg e1 hlt with ⟨h5, h6⟩ | ⟨p, v, h5, h6, h7⟩
        · rw [h6] at hgm; cases hgm; exact ⟨hc2, Or.inl hc1⟩
        · rw [h7] at hgm; cases hgm
          have hfp := hfit (t, c) (by simp) n p hn h5
          obtain ⟨w, hw, h8⟩ := addRaw_takes ⟨hc1, hc2⟩ hpos hfp.1 hfp.2
          rw [h6] at hw
          cases hw
          exact h8
      · have hlu := getElem?_lt hm'
        have hs := applyUpdate_other e1 (t := u.1) (fun h => htu h.symm) hlu
        rw [hm, hm'] at hs
        have hs' := Option.some.inj hs
        rw [hs'] at hm
        rw [gradOf_congr hg hf1 hm' hm] at hgm
        exact hfit u (by simp [hu']) m' g hm' hgm)
    exact ⟨h', by rw [applyUpdates_cons, e1]; exact e2⟩

/-- `jvpUpdates` reads data and history only. -/
theorem jvpUpdates_frame {h h1 : Heap T} (hf : Frame h h1) (hg : h.Good) : ∀ {fuel : Nat} {d : Deriv} {gs : List (Raw T)},
    (∀ i ∈ d.inputs, i < h.length) → jvpUpdates fuel h1 d gs = jvpUpdates fuel h d gs := by
  intro fuel
  induction fuel with
  | zero => intro d gs _; rfl
  | succ fuel ih =>
    intro d gs hd
    have hv : h1.vals d.inputs = h.vals d.inputs := by
      unfold Heap.vals
      refine mapM_congr_mem fun i hi => ?_
      obtain ⟨g, hg'⟩ := hf.get (List.getElem?_eq_getElem (hd i hi))
      rw [Heap.node_eq_ok.2 hg', Heap.node_eq_ok.2 (List.getElem?_eq_getElem (hd i hi))]
      rfl
    unfold jvpUpdates
    rw [hv]
    congr 1; funext vs; congr 1; funext sg; congr 1
    refine mapM_congr_mem ?_
    rintro ⟨grad, i⟩ hmem
    have hi := hd i (List.of_mem_zip hmem).2
    have hn := List.getElem?_eq_getElem hi
    obtain ⟨g, hg'⟩ := hf.get hn
    simp only [Heap.node_eq_ok.2 hg', Heap.node_eq_ok.2 hn, R.bind_ok]
    congr 1; funext _; congr 1; funext _
    cases hgf : h[i].gradFn with
    | none => rfl
    | some d' =>
      simp only
      rw [ih fun j hj => ((hg i _ hn).older d' hgf j hj).trans hi]

theorem jvpUpdates_fuel {h : Heap T} (hg : h.Good) : ∀ (fuel fuel' : Nat) {d : Deriv} {gs : List (Raw T)},
    (∀ i ∈ d.inputs, i < h.length ∧ i < fuel ∧ i < fuel') → jvpUpdates (fuel + 1) h d gs = jvpUpdates (fuel' + 1) h d gs := by
  intro fuel
  induction fuel with
  | zero =>
    intro fuel' d gs hd
    have : d.inputs = [] := by
      cases hi : d.inputs with
      | nil => rfl
      | cons a l => have := hd a (by simp [hi]); omega
    unfold jvpUpdates
    simp only [this, List.zip_nil_right, List.mapM_nil]
  | succ fuel ih =>
    intro fuel' d gs hd
    conv_lhs => unfold jvpUpdates
    conv_rhs => unfold jvpUpdates
    congr 1; funext vs; congr 1; funext sg; congr 1
    refine mapM_congr_mem ?_
    rintro ⟨grad, i⟩ hmem
    obtain ⟨hi, hi1, hi2⟩ := hd i (List.of_mem_zip hmem).2
    have hn := List.getElem?_eq_getElem hi
    simp only [Heap.node_eq_ok.2 hn, R.bind_ok]
    congr 1; funext _; congr 1; funext _
    cases hgf : h[i].gradFn with
    | none => rfl
    | some d' =>
      simp only
      obtain ⟨k, rfl⟩ : ∃ k, fuel' = k + 1 := ⟨fuel' - 1, by omega⟩
      rw [ih k fun j hj => by have := (hg i _ hn).older d' hgf j hj; omega]

/-- The updates of a backward pass from a later state of the same graph are the same. -/
theorem backward_inv_frame {h h1 h2 : Heap T} {l : Nat} {n : Node T} (hf : Frame h h1) (hg : h.Good) (hg1 : h1.Good)
    (hn : h[l]? = some n) (e : backward h1 l = .ok h2) :
    ∃ d us, n.val.array.length = 1 ∧ n.gradFn = some d ∧ jvpUpdates (h.length + 1) h d [Raw.scalar 1] = .ok us ∧
      applyUpdates h1 us = .ok h2 := by
  obtain ⟨n', d, us, hn', hlen, hd, h3, h4⟩ := backward_inv hg1 e
  obtain ⟨g, hgn⟩ := hf.get hn
  rw [hn'] at hgn
  cases hgn
  have hold := (hg l n hn).older d hd
  have hll := getElem?_lt hn
  have hin : ∀ i ∈ d.inputs, i < h.length := fun i hi => (hold i hi).trans hll
  refine ⟨d, us, hlen, hd, ?_, h4⟩
  rw [← h3, jvpUpdates_frame hf hg hin]
  exact jvpUpdates_fuel hg _ _ fun i hi => by have := hin i hi; have := hf.len; omega

/-- Fitting contributions keep the gradient fitting. -/
theorem gradAccum_fits {s : List Nat} : ∀ {cs : List (Raw T)} {o o' : Option (Raw T)}, (∀ c ∈ cs, c.shape = s ∧ WF c) →
    (∀ p, o = some p → p.shape = s ∧ WF p) → gradAccum o cs = .ok o' → ∀ p, o' = some p → p.shape = s ∧ WF p := by
  intro cs
  induction cs with
  | nil => intro o o' _ ho e; cases e; exact ho
  | cons c cs ih =>
    intro o o' hcs ho e
    rw [gradAccum_cons, R.bind_eq_ok] at e
    obtain ⟨q, e1, e2⟩ := e
    obtain ⟨hc1, hc2⟩ := hcs c (by simp)
    refine ih (fun d hd => hcs d (by simp [hd])) ?_ e2
    cases o with
    | none =>
      simp only [gradAccumStep, R.pure_eq_ok] at e1
      subst e1
      rintro p ⟨⟩
      exact ⟨hc1, hc2⟩
    | some p =>
      simp only [gradAccumStep, R.bind_eq_ok, R.pure_eq_ok] at e1
      obtain ⟨v, e1, rfl⟩ := e1
      obtain ⟨hp, hw⟩ := ho p rfl
      obtain ⟨_, rfl⟩ := addRaw_same_inv hw hc2 (hp.trans hc1.symm) e1
      rintro p ⟨⟩
      exact ⟨hp, zipWith_wf hw (by rw [hp, ← hc1]; exact hc2)⟩

theorem gradContribs_shape {h : Heap T} {fuel : Nat} {d : Deriv} {gs : List (Raw T)} {us : List (Nat × Raw T)}
    (u1 : jvpUpdates fuel h d gs = .ok us) {t : Nat} {n : Node T} (hn : h[t]? = some n) :
    ∀ c ∈ gradContribs us t, c.shape = n.val.shape ∧ WF c := by
  intro c hc
  obtain ⟨u, hu, rfl⟩ := List.mem_map.1 hc
  obtain ⟨hu1, hu2⟩ := List.mem_filter.1 hu
  obtain ⟨m, hm, h3, h4⟩ := jvpUpdates_shape u1 u hu1
  have : u.1 = t := by simpa using hu2
  rw [this, hn] at hm
  cases hm
  exact ⟨h3, h4⟩

/-- `backward` keeps gradients fitting. -/
theorem backward_fits {h h' : Heap T} {l t : Nat} {n : Node T} (hg : h.Good) (e : backward h l = .ok h') (hn : h[t]? = some n)
    (ho : ∀ g, gradOf h t = some g → g.shape = n.val.shape ∧ WF g) :
    ∀ g, gradOf h' t = some g → g.shape = n.val.shape ∧ WF g := by
  obtain ⟨_, d, us, _, _, _, u1, a1⟩ := backward_inv hg e
  exact gradAccum_fits (gradContribs_shape u1 hn) ho (applyUpdates_grad hg (getElem?_lt hn) a1)

/-- Tensors created by updates of older tensors have no gradient. -/
theorem applyUpdates_newer {c : Nat} {us : List (Nat × Raw T)} : ∀ {h h' : Heap T}, c ≤ h.length → (∀ u ∈ us, u.1 < c) →
    (∀ t n, c ≤ t → h[t]? = some n → n.grad = none) → applyUpdates h us = .ok h' →
    ∀ t n, c ≤ t → h'[t]? = some n → n.grad = none := by
  induction us with
  | nil => intro h h' _ _ hi e; cases e; exact hi
  | cons u us ih =>
    intro h h' hc hu hi e
    rw [applyUpdates_cons, R.bind_eq_ok] at e
    obtain ⟨h1, e1, e2⟩ := e
    have hlen := (applyUpdate_frame e1).len
    refine ih (hc.trans hlen) (fun v hv => hu v (by simp [hv])) ?_ e2
    have huc := hu u (by simp)
    intro t n ht hn
    have hlf : ∀ t n, c ≤ t → (h.leaf u.2).1[t]? = some n → n.grad = none := by
      intro t n ht hn
      rcases Nat.lt_trichotomy t h.length with h' | h' | h'
      · simp only [Heap.leaf, Heap.alloc, List.getElem?_append_left h'] at hn
        exact hi t n ht hn
      · subst h'
        simp [Heap.leaf, Heap.alloc] at hn
        subst hn
        rfl
      · have := getElem?_lt hn
        simp [Heap.leaf, Heap.alloc] at this
        omega
    obtain ⟨m, hm, ⟨_, rfl⟩ | ⟨o, on, gn, v, _, _, _, _, rfl⟩⟩ := updateGrad_inv e1
    · rw [List.getElem?_set_ne (by omega)] at hn
      exact hlf t n ht hn
    · rw [List.getElem?_set_ne (by omega)] at hn
      rcases Nat.lt_or_ge t (h.leaf u.2).1.length with h' | h'
      · rw [List.getElem?_append_left h'] at hn
        exact hlf t n ht hn
      · have := getElem?_lt hn
        have ht' : t = (h.leaf u.2).1.length := by simp at this; omega
        subst ht'
        simp at hn
        subst hn
        rfl

/-- A contribution leaves a gradient. -/
theorem gradAccum_isSome : ∀ {cs : List (Raw T)} {o o' : Option (Raw T)}, (o ≠ none ∨ cs ≠ []) → gradAccum o cs = .ok o' → o' ≠ none := by
  intro cs
  induction cs with
  | nil => intro o o' ho e; cases e; simpa using ho
  | cons c cs ih =>
    intro o o' _ e
    rw [gradAccum_cons, R.bind_eq_ok] at e
    obtain ⟨q, e1, e2⟩ := e
    refine ih (.inl ?_) e2
    cases o with
    | none => simp only [gradAccumStep, R.pure_eq_ok] at e1; subst e1; simp
    | some p =>
      simp only [gradAccumStep, R.bind_eq_ok, R.pure_eq_ok] at e1
      obtain ⟨v, e1, rfl⟩ := e1
      simp

theorem foldl_vadd {T : Type} [AddCommMonoid T] {s : Nat} : ∀ (cs : List (List T)) (p c : List T), p.length = s → c.length = s →
    (∀ x ∈ cs, x.length = s) → cs.foldl (fun a x => List.zipWith (· + ·) a x) (List.zipWith (· + ·) p c) =
      List.zipWith (· + ·) p (cs.foldl (fun a x => List.zipWith (· + ·) a x) c) := by
  intro cs
  induction cs with
  | nil => intro p c _ _ _; rfl
  | cons x cs ih =>
    intro p c hp hc hx
    have hxl := hx x (by simp)
    simp only [List.foldl_cons]
    have : List.zipWith (· + ·) (List.zipWith (· + ·) p c) x = List.zipWith (· + ·) p (List.zipWith (· + ·) c x) := by
      apply List.ext_getElem
      · simp [hp, hc, hxl]
      · intro k _ _
        simp [add_assoc]
    rw [this]
    exact ih p _ hp (by simp [hc, hxl]) (fun y hy => hx y (by simp [hy]))

theorem Spec.Reachable.good {h : Heap T} (hr : Reachable h) : h.Good := by
  obtain ⟨ops, e⟩ := hr
  exact runOps_good e

end RL
