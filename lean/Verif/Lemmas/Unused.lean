import Verif.Model.Unused
import Verif.Lemmas.Arith
import Verif.Lemmas.TanhJvp
import Verif.Lemmas.Heap

/-!
# Lemmas on the functions that nothing calls
-/

namespace RL

open Spec

variable {T : Type}

theorem VExpr.eval_append {h : Heap T} (ns : List (Node T)) : ∀ {e : VExpr} {v : View T}, e.eval h = .ok v → e.eval (h ++ ns) = .ok v
  | .view t ranges, v, hv => by
    simp only [VExpr.eval, R.bind_eq_ok] at hv ⊢
    obtain ⟨n, hn, hv⟩ := hv
    refine ⟨n, Heap.node_eq_ok.2 ?_, hv⟩
    have := Heap.node_eq_ok.1 hn
    rw [List.getElem?_append_left (List.getElem?_eq_some_iff.1 this).1, this]
  | .reshape e shape, v, hv => by
    simp only [VExpr.eval, R.bind_eq_ok] at hv ⊢
    obtain ⟨w, hw, hv⟩ := hv
    exact ⟨w, VExpr.eval_append ns hw, hv⟩
  | .slice e ranges, v, hv => by
    simp only [VExpr.eval, R.bind_eq_ok] at hv ⊢
    obtain ⟨w, hw, hv⟩ := hv
    exact ⟨w, VExpr.eval_append ns hw, hv⟩

theorem Opnd.eval_append {h : Heap T} (ns : List (Node T)) {x : Opnd} {v : TL T} (hv : x.eval h = .ok v) :
    x.eval (h ++ ns) = .ok v := by
  cases x with
  | tensor t =>
    simp only [Opnd.eval, R.bind_eq_ok] at hv ⊢
    obtain ⟨n, hn, hv⟩ := hv
    refine ⟨n, Heap.node_eq_ok.2 ?_, hv⟩
    have := Heap.node_eq_ok.1 hn
    rw [List.getElem?_append_left (List.getElem?_eq_some_iff.1 this).1, this]
  | view e =>
    simp only [Opnd.eval, R.bind_eq_ok] at hv ⊢
    obtain ⟨w, hw, hv⟩ := hv
    exact ⟨w, VExpr.eval_append ns hw, hv⟩

/-- what `to_tensor` of an operand gives -/
theorem Opnd.toTensorT_ok {h : Heap T} {x : Opnd} {v : TL T} (hv : x.eval h = .ok v) (ho : Ok v) (hp : Pos v.shape) :
    ∃ ns i n, x.toTensorT h = .ok (h ++ ns, i) ∧ (h ++ ns)[i]? = some n ∧ n.val = ⟨elems v, v.shape⟩ ∧
      ((∃ t, x = .tensor t ∧ ns = [] ∧ i = t) ∨ ∃ e, x = .view e ∧ ns = [leafNode ⟨elems v, v.shape⟩] ∧ i = h.length) := by
  cases x with
  | tensor t =>
    simp only [Opnd.eval, R.bind_eq_ok] at hv
    obtain ⟨n, hn, hv⟩ := hv
    obtain rfl : TL.raw n.val = v := Except.ok.inj hv
    refine ⟨[], t, n, ?_, ?_, ?_, .inl ⟨t, rfl, rfl, rfl⟩⟩
    · simp only [Opnd.toTensorT, hn, List.append_nil]; rfl
    · rw [List.append_nil]; exact Heap.node_eq_ok.1 hn
    · rw [elems_raw ho]; rfl
  | view e =>
    simp only [Opnd.eval, R.bind_eq_ok] at hv
    obtain ⟨w, hw, hv⟩ := hv
    obtain rfl : TL.view w = v := Except.ok.inj hv
    refine ⟨[leafNode ⟨elems (.view w), w.shape⟩], h.length, leafNode ⟨elems (.view w), w.shape⟩, ?_, by simp, rfl,
      .inr ⟨e, rfl, rfl, rfl⟩⟩
    simp only [Opnd.toTensorT, viewToTensorT, hw, R.bind_ok, toTensor_ok ho hp]
    rfl

theorem tanhDiagonal_ok [One T] [Sub T] [RealFn T] {t : Raw T} (ht : WF t) (hp : Pos t.shape) :
    tanhDiagonal t = .ok ⟨t.array.map tanhDerivFn, t.shape⟩ := by
  have key : ∀ (l acc : List T), l.foldl (fun a e => a ++ [tanhDerivFn e]) acc = acc ++ l.map tanhDerivFn := by
    intro l
    induction l with
    | nil => simp
    | cons a l ih => intro acc; simp [ih]
  unfold tanhDiagonal
  rw [forElems_eq (x := .raw t) ht hp [] (fun a e => a ++ [tanhDerivFn e]), R.bind_ok, key, elems_raw ht, List.nil_append]
  exact Raw.new_ok (by rw [List.length_map]; exact ht)

end RL
