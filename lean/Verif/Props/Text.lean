import Verif.Lemmas.Text
import Verif.Lemmas.TestInt
import Verif.Props.Graph

/-!
# C104: printed tensors

How an element is printed is `text`, any function.
-/

namespace RL

open Spec

variable {T : Type}

/-- C104: a tensor is printed as the elements that `get` reads at its indices, in row-major order, in brackets and separated by commas;
the shape is not printed. -/
theorem C104_elements (text : T → List Char) (h : Heap T) (t : Nat) (v : Raw T) (hv : dataOf h t = some v) (hw : WF v) :
    ∃ es : List T, (allIndices v.shape).mapM (fun i => v.get i) = .ok es ∧ displayFmt text h t = .ok (listed (es.map text)) := by
  obtain ⟨n, hn, rfl⟩ := Option.map_eq_some_iff.1 hv
  have e := mapM_get (x := .raw n.val) hw
  rw [elems_raw hw] at e
  refine ⟨n.val.array, ?_, ?_⟩
  · refine mapM_ok_iff.2 ((mapM_ok_iff.1 e).imp fun i a hi => ?_)
    simp only [TL.get] at hi
    cases hg : n.val.get i with
    | ok a' => rw [hg] at hi; exact hi
    | error f => rw [hg] at hi; cases f <;> cases hi
  · simp only [displayFmt, Heap.node_eq_ok.2 hn, vecText_eq]; rfl

/-- C104, test: what `{}` prints for a 2 × 2 tensor, an empty one and a scalar. -/
example : displayFmt (fun n : Int => n.repr.toList) [leafNode ⟨[1, -20, 3, 0], [2, 2]⟩, leafNode ⟨[], [0]⟩, leafNode ⟨[7], []⟩] 0 =
      .ok "[1, -20, 3, 0]".toList ∧
    displayFmt (fun n : Int => n.repr.toList) [leafNode ⟨[1, -20, 3, 0], [2, 2]⟩, leafNode ⟨[], [0]⟩, leafNode ⟨[7], []⟩] 1 =
      .ok "[]".toList ∧
    displayFmt (fun n : Int => n.repr.toList) [leafNode ⟨[1, -20, 3, 0], [2, 2]⟩, leafNode ⟨[], [0]⟩, leafNode ⟨[7], []⟩] 2 =
      .ok "[7]".toList := ⟨rfl, rfl, rfl⟩

/-- C104: any tensor can be printed, also one whose number of elements does not fit its shape, and printing one fails only if there is
no such tensor. -/
theorem C104_total (text : T → List Char) (h : Heap T) (t : Nat) : (∃ s, displayFmt text h t = .ok s) ↔ ∃ v, dataOf h t = some v := by
  constructor
  · rintro ⟨s, e⟩
    simp only [displayFmt, R.bind_eq_ok] at e
    obtain ⟨n, hn, _⟩ := e
    exact ⟨n.val, by rw [dataOf, Heap.node_eq_ok.1 hn]; rfl⟩
  · rintro ⟨v, hv⟩
    obtain ⟨n, hn, rfl⟩ := Option.map_eq_some_iff.1 hv
    exact ⟨_, by simp only [displayFmt, Heap.node_eq_ok.2 hn]; rfl⟩

/-- C104, test: `RawTensor::default()`, no element although its shape asks for one. -/
example : displayFmt (fun n : Int => n.repr.toList) [leafNode Raw.default] 0 = .ok "[]".toList := rfl

section

variable [Zero T] [One T] [Add T] [Mul T] [Sub T] [Neg T] [LT T] [DecidableLT T] [LE T] [DecidableLE T] [RealFn T]

/-- C104: what is printed for a tensor stays the same whatever is done later, gradients computed included. -/
theorem C104_history (text : T → List Char) (h h' : Heap T) (ops : List (Op T)) (hr : Reachable h) (e : runOps h ops = .ok h') (t : Nat)
    (ht : t < h.length) : displayFmt text h' t = displayFmt text h t := by
  have hd := (C49_history h h' ops hr e t ht).1
  obtain ⟨n, hn⟩ : ∃ n, h[t]? = some n := ⟨_, List.getElem?_eq_getElem ht⟩
  rw [dataOf, dataOf, hn, Option.map_some, Option.map_eq_some_iff] at hd
  obtain ⟨n', hn', e'⟩ := hd
  simp only [displayFmt, Heap.node_eq_ok.2 hn, Heap.node_eq_ok.2 hn']
  show Except.ok (vecText text n'.val.array) = Except.ok (vecText text n.val.array)
  rw [e']

end

section

attribute [local instance] Test.intFn

/-- C104, test: a tensor printed before and after `backward`. -/
example : ∃ h h', runOps ([] : Heap Int) [.new [1, 2] [2], .add 0 0, .sum 1] = .ok h ∧ runOps h [.backward 3] = .ok h' ∧
    displayFmt (fun n : Int => n.repr.toList) h 0 = .ok "[1, 2]".toList ∧
    displayFmt (fun n : Int => n.repr.toList) h' 0 = .ok "[1, 2]".toList := ⟨_, _, rfl, rfl, rfl, rfl⟩

end

/-- C104: if the element texts are legible, tensors printed alike have the same elements in memory order. -/
theorem C104_array (text : T → List Char) (hl : Legible text) (g h : Heap T) (s t : Nat) (v w : Raw T) (hv : dataOf g s = some v)
    (hw : dataOf h t = some w) (e : displayFmt text g s = displayFmt text h t) : v.array = w.array := by
  obtain ⟨n, hn, rfl⟩ := Option.map_eq_some_iff.1 hv
  obtain ⟨m, hm, rfl⟩ := Option.map_eq_some_iff.1 hw
  simp only [displayFmt, Heap.node_eq_ok.2 hn, Heap.node_eq_ok.2 hm] at e
  have e : vecText text n.val.array = vecText text m.val.array := Except.ok.inj e
  rw [vecText_eq, vecText_eq] at e
  exact listed_inj hl e

/-- C104, in full: tensors printed alike are equal. -/
def C104_statement : Prop :=
  ∀ (T : Type) (text : T → List Char), Legible text → ∀ (g h : Heap T) (s t : Nat) (v w : Raw T), dataOf g s = some v →
    dataOf h t = some w → displayFmt text g s = displayFmt text h t → v = w

/-- C104 is false: the shape is not printed. -/
theorem C104_false : ¬ C104_statement := fun H =>
  absurd (H Int _ intText_legible [leafNode ⟨[1, 2], [2]⟩] [leafNode ⟨[1, 2], [1, 2]⟩] 0 0 _ _ rfl rfl rfl) (by decide)

/-- C104: tensors of the same shape that are printed alike are equal. Missing from the full statement: tensors of different shapes. -/
theorem C104_partial (text : T → List Char) (hl : Legible text) (g h : Heap T) (s t : Nat) (v w : Raw T) (hv : dataOf g s = some v)
    (hw : dataOf h t = some w) (hs : v.shape = w.shape) : displayFmt text g s = displayFmt text h t ↔ v = w := by
  constructor
  · intro e
    have ha := C104_array text hl g h s t v w hv hw e
    obtain ⟨a, s⟩ := v; obtain ⟨b, u⟩ := w
    simp only at ha hs
    rw [ha, hs]
  · rintro rfl
    obtain ⟨n, hn, e1⟩ := Option.map_eq_some_iff.1 hv
    obtain ⟨m, hm, e2⟩ := Option.map_eq_some_iff.1 hw
    simp only [displayFmt, Heap.node_eq_ok.2 hn, Heap.node_eq_ok.2 hm]
    show Except.ok (vecText text n.val.array) = Except.ok (vecText text m.val.array)
    rw [e1, e2]

/-- C104: integers in decimal notation are legible, so tensors of integers of the same shape are printed alike exactly if they are
equal. -/
theorem C104_int (g h : Heap Int) (s t : Nat) (v w : Raw Int) (hv : dataOf g s = some v) (hw : dataOf h t = some w)
    (hs : v.shape = w.shape) :
    displayFmt (fun n : Int => n.repr.toList) g s = displayFmt (fun n : Int => n.repr.toList) h t ↔ v = w :=
  C104_partial _ intText_legible g h s t v w hv hw hs

/-- C104, test: the hypotheses hold for two tensors that are printed differently. -/
example : ∃ v w, dataOf [leafNode ⟨[1, 12], [2]⟩] 0 = some v ∧ dataOf [leafNode ⟨[11, 2], [2]⟩] 0 = some w ∧ v.shape = w.shape ∧
    displayFmt (fun n : Int => n.repr.toList) [leafNode ⟨[1, 12], [2]⟩] 0 = .ok "[1, 12]".toList ∧
    displayFmt (fun n : Int => n.repr.toList) [leafNode ⟨[11, 2], [2]⟩] 0 = .ok "[11, 2]".toList := ⟨_, _, rfl, rfl, rfl, rfl, rfl⟩

end RL
