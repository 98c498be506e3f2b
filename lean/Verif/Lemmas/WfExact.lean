import Verif.SpecShapes
import Verif.Lemmas.WfOps
import Verif.Lemmas.Ops3

/-!
# Which operations make tensors whose elements do not fill their shape
-/

namespace RL

open Spec

variable {T : Type}

theorem viewShape_eq : ∀ {rs : List SliceRange} {dims s : List Nat}, rs.length = dims.length → viewShape (rs.zip dims) = .ok s →
    s = rs.map fun r => r.stop - r.start
  | [], _, s, _, e => by
    simp only [List.zip_nil_left, viewShape, R.pure_eq_ok] at e
    subst e; rfl
  | r :: rs, [], s, hl, _ => by simp at hl
  | r :: rs, d :: dims, s, hl, e => by
    simp only [List.zip_cons_cons, viewShape, R.bind_eq_ok, R.pure_eq_ok] at e
    obtain ⟨_, _, x, hx, y, hy, rfl⟩ := e
    have hx' : x = r.stop - r.start := by
      unfold subR at hx
      split at hx <;> cases hx
      rfl
    rw [List.map_cons, ← viewShape_eq (by simpa using hl) hy, hx']

theorem View.new_size {t : Raw T} {rs : List SliceRange} {w : View T} (e : View.new t rs = .ok w) :
    w.tensor = t ∧ w.shape = rs.map fun r => r.stop - r.start := by
  simp only [View.new, R.bind_eq_ok, R.pure_eq_ok, assertR_eq_ok] at e
  obtain ⟨_, hl, s, hs, rfl⟩ := e
  exact ⟨rfl, viewShape_eq (by simpa using assertR_eq_ok.1 hl) hs⟩

theorem VExpr.eval_size {h : Heap T} : ∀ {v : VExpr} {w : View T}, v.eval h = .ok w →
    dataOf h (viewedTensor v) = some w.tensor ∧ w.shape.prod = viewedSize v
  | .view t rs, w, e => by
    simp only [VExpr.eval, R.bind_eq_ok, Heap.node_eq_ok] at e
    obtain ⟨n, hn, e⟩ := e
    obtain ⟨h1, h2⟩ := View.new_size e
    exact ⟨by simp [dataOf, viewedTensor, hn, h1], by rw [h2]; rfl⟩
  | .reshape v s, w, e => by
    simp only [VExpr.eval, R.bind_eq_ok, View.reshape, R.pure_eq_ok, assertR_eq_ok] at e
    obtain ⟨u, hu, _, hs, rfl⟩ := e
    obtain ⟨h1, h2⟩ := VExpr.eval_size hu
    exact ⟨h1, by rw [viewedSize, ← h2]; simpa using (beq_iff_eq.1 (assertR_eq_ok.1 hs)).symm⟩
  | .slice v rs, w, e => by
    simp only [VExpr.eval, R.bind_eq_ok, View.slice] at e
    obtain ⟨u, hu, e⟩ := e
    obtain ⟨h1, -⟩ := VExpr.eval_size hu
    obtain ⟨h2, h3⟩ := View.new_size e
    exact ⟨by rw [h2]; exact h1, by rw [h3]; rfl⟩

theorem wf_scaled {b : Raw T} (hb : WF b) {s : List Nat} (f : T → T) : WF (⟨b.array.map f, s⟩ : Raw T) ↔ s.prod = b.shape.prod := by
  simp only [WF, List.length_map] at *
  rw [hb, eq_comm]

variable [Zero T] [One T] [Add T] [Mul T] [Sub T] [Neg T] [LT T] [DecidableLT T] [LE T] [DecidableLE T] [RealFn T]

theorem allWF_last {h : Heap T} (hw : AllWF h) {v : Raw T} : AllWF (h ++ [leafNode v]) ↔ WF v :=
  ⟨fun k => k h.length (leafNode v) (by simp), fun k => hw.append (n := leafNode v) k⟩

theorem Op.run_wf_iff {h h' : Heap T} {op : Op T} (hg : h.Good) (hw : AllWF h) (e : op.run h = .ok h') : AllWF h' ↔ ¬ Misshapes h op := by
  have key : ∀ {v : VExpr} {w : View T}, v.eval h = .ok w → WF w.tensor := by
    intro v w hv
    obtain ⟨h1, -⟩ := VExpr.eval_size hv
    simp only [dataOf, Option.map_eq_some_iff] at h1
    obtain ⟨n, hn, h1⟩ := h1
    rw [← h1]
    exact hw _ n hn
  by_cases hm : Misshaping h op
  · cases hm with
    | default =>
      simp only [Op.run, R.pure_eq_ok, Heap.leaf, Heap.alloc] at e
      subst e
      refine ⟨fun k => absurd ((allWF_last hw).1 k) (by simp [WF, Raw.default]), fun k => absurd .default k⟩
    | mulView l v s hs h0 =>
      obtain ⟨_, e⟩ := map_fst_eq_ok e
      simp only [mulViewT, R.bind_eq_ok, R.pure_eq_ok, Heap.node_eq_ok, Heap.leaf, Heap.alloc] at e
      obtain ⟨ln, hl, w, hv, val, hval, e⟩ := e
      cases e
      have hs' : ln.val = s := by simpa [dataOf, hl] using hs
      rw [mulRaw, hs', h0] at hval
      simp only [List.isEmpty_nil, if_true, R.bind_eq_ok, R.pure_eq_ok] at hval
      obtain ⟨c, hc, rfl⟩ := hval
      obtain ⟨h1, h2⟩ := VExpr.eval_size hv
      rw [allWF_last hw]
      refine (wf_scaled (key hv) _).trans ⟨?_, ?_⟩
      · rintro h3 (⟨⟩ | ⟨_, _, _, b, _, _, hb, hne⟩)
        rw [h1] at hb
        cases hb
        exact hne (h2.symm.trans h3)
      · intro h3
        by_contra h4
        exact h3 (.mulView l v s _ hs h0 h1 fun h5 => h4 (h2.trans h5))
    | leftMul s v =>
      obtain ⟨_, e⟩ := map_fst_eq_ok e
      simp only [leftMulT, Opnd.eval, R.bind_eq_ok, R.pure_eq_ok, Heap.leaf, Heap.alloc] at e
      obtain ⟨x, ⟨w, hv, rfl⟩, e⟩ := e
      cases e
      obtain ⟨h1, h2⟩ := VExpr.eval_size hv
      rw [allWF_last hw]
      refine (wf_scaled (key hv) _).trans ⟨?_, ?_⟩
      · rintro h3 (⟨⟩ | ⟨⟩ | ⟨_, _, b, hb, hne⟩)
        rw [h1] at hb
        cases hb
        exact hne (h2.symm.trans h3)
      · intro h3
        by_contra h4
        exact h3 (.leftMul s v _ h1 fun h5 => h4 (h2.trans h5))
    | rightMul v s =>
      obtain ⟨_, e⟩ := map_fst_eq_ok e
      simp only [rightMulT, Opnd.eval, R.bind_eq_ok, R.pure_eq_ok, Heap.leaf, Heap.alloc] at e
      obtain ⟨x, ⟨w, hv, rfl⟩, e⟩ := e
      cases e
      obtain ⟨h1, h2⟩ := VExpr.eval_size hv
      rw [allWF_last hw]
      refine (wf_scaled (key hv) _).trans ⟨?_, ?_⟩
      · rintro h3 (⟨⟩ | ⟨⟩ | ⟨⟩ | ⟨_, _, b, hb, hne⟩)
        rw [h1] at hb
        cases hb
        exact hne (h2.symm.trans h3)
      · intro h3
        by_contra h4
        exact h3 (.rightMul v s _ h1 fun h5 => h4 (h2.trans h5))
  · refine ⟨fun _ k => hm ?_, fun _ => Op.run_wf hg hw hm e⟩
    cases k with
    | default => exact .default
    | mulView l v s b h1 h2 h3 h4 => exact .mulView l v s h1 h2
    | leftMul s v b h1 h2 => exact .leftMul s v
    | rightMul v s b h1 h2 => exact .rightMul v s

theorem AllWF.of_frame {h h' : Heap T} (hf : Frame h h') (hw : AllWF h') : AllWF h := by
  intro i n hn
  obtain ⟨g, hg⟩ := hf.get hn
  exact hw i { n with grad := g } hg

end RL
