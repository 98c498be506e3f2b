import Verif.Lemmas.Iter
import Verif.Lemmas.MachineFits
import Verif.Props.Machine

/-!
# C88: iterators called one by one
-/

namespace RL

open Spec

variable {T : Type}

/-- C88: for every shape and in both profiles, the calls of `next` on `iter_indices` return the indices of the shape in row-major order,
and then `None` for ever. -/
def C88_statement : Prop := ∀ (p : Profile) (shape : List Nat), (∀ d ∈ shape, d < 2 ^ 64) →
  ∀ k, (IndexIter.new shape).calls p k = .ok (allIndices shape)[k]?

/-- C88 is false: `iter_indices` of a tensor of shape `[0]` returns the index `[0]`, which the tensor does not have. -/
theorem C88_false : ¬ C88_statement := by
  intro h
  have := h .debug [0] (by simp) 0
  revert this
  decide

/-- C88 for shapes without a zero. Missing: shapes with a zero, for which it is false; for these see `C88_debug` and `C88_release`. -/
theorem C88_partial (p : Profile) (shape : List Nat) (hs : ∀ d ∈ shape, 1 ≤ d ∧ d < 2 ^ 64) (k : Nat) :
    (IndexIter.new shape).calls p k = .ok (allIndices shape)[k]? :=
  IndexIter.calls_eq (fun idx => C71_increment p idx shape hs) rfl (fun d hd => (hs d hd).1) k

/-- C88, the debug profile for shapes with a zero: the iterator ignores the last zero and all dimensions before it, that is, it returns
the indices of the rest of the shape preceded by zeros, and then every call panics. It never returns `None`. -/
theorem C88_debug (a b : List Nat) (hb : Pos b) (hs : ∀ d ∈ a ++ 0 :: b, d < 2 ^ 64) (k : Nat) :
    (IndexIter.new (a ++ 0 :: b)).calls .debug k = match (allIndices b)[k]? with
      | some idx => .ok (some (List.replicate (a.length + 1) 0 ++ idx))
      | none => .error (.panic .overflow) := IndexIter.calls_zero hs hb k

/-- C88, the release profile for every shape: a zero counts as `2^64`. So for a shape with a zero none of the first `2^64` calls returns
`None`. -/
theorem C88_release (shape : List Nat) (hs : ∀ d ∈ shape, d < 2 ^ 64) (k : Nat) :
    (IndexIter.new shape).calls .release k = .ok (allIndices (shape.map fun d => if d = 0 then 2 ^ 64 else d))[k]? :=
  IndexIter.calls_eq (dims' := shape.map releaseDim) (fun idx => incrementIndexU_release idx shape hs) (by simp) (fun d hd => by
    obtain ⟨e, _, rfl⟩ := List.mem_map.1 hd
    unfold releaseDim
    split <;> omega) k

/-- C88: none of the first `2^64` calls for a shape with a zero returns `None` in the release profile. -/
theorem C88_release_zero (shape : List Nat) (hs : ∀ d ∈ shape, d < 2 ^ 64) (h0 : 0 ∈ shape) (k : Nat) (hk : k < 2 ^ 64) :
    ∃ idx, (IndexIter.new shape).calls .release k = .ok (some idx) := by
  rw [C88_release shape hs]
  have h1 : k < (allIndices (shape.map fun d => if d = 0 then 2 ^ 64 else d)).length := by
    rw [allIndices_length]
    have hpos : ∀ l : List Nat, 0 < (l.map fun d => if d = 0 then 2 ^ 64 else d).prod := by
      intro l
      induction l with
      | nil => simp
      | cons d l ih => rw [List.map_cons, List.prod_cons]; exact Nat.mul_pos (by split <;> omega) ih
    obtain ⟨s, t, rfl⟩ := List.append_of_mem h0
    rw [List.map_append, List.prod_append, List.map_cons, List.prod_cons, if_pos rfl, Nat.mul_left_comm]
    exact hk.trans_le (Nat.le_mul_of_pos_right _ (Nat.mul_pos (hpos s) (hpos t)))
  exact ⟨_, by rw [List.getElem?_eq_getElem h1]⟩

/-- C88: the calls of `next` on an `ElementIterator` over a tensor or a view return its elements in row-major order, in both profiles, and
then `None` for ever. -/
theorem C88_elements (p : Profile) (x : TL T) (hx : Ok x) (hp : Pos x.shape)
    (hf : match x with | .raw t => Fits t.shape | .view v => Fits v.tensor.shape) (k : Nat) :
    elemCalls p x k (IndexIter.new x.shape) = .ok (elems x)[k]? := by
  have hstop : ∀ v, x = .view v → ∀ r ∈ v.offset, r.stop < 2 ^ 64 := by
    rintro v rfl r hr
    obtain ⟨j, hj, rfl⟩ := List.getElem_of_mem hr
    have hj' : j < v.tensor.shape.length := by rw [← hx.2.1.length_eq]; exact hj
    have h4 := hx.2.1.get hj hj'
    have h5 := Fits.lt hf (List.getElem_mem hj')
    simp only [List.get_eq_getElem] at h4
    omega
  have hlt : ∀ d ∈ x.shape, d < 2 ^ 64 := by
    cases x with
    | raw t => exact fun d hd => Fits.lt hf hd
    | view v =>
      intro d hd
      rw [show (TL.view v).shape = v.shape from rfl, hx.2.2] at hd
      obtain ⟨r, hr, rfl⟩ := List.mem_map.1 hd
      have := hstop v rfl r hr
      omega
  have hback : ∀ idx, Back (x.get idx) (x.getU .debug idx) := by
    intro idx
    cases x with
    | raw t => exact Raw.getU_back hf idx
    | view v => exact (globalIndexU_back hf fun rs h => by cases h; exact hstop v rfl).unwrapR.bind fun _ _ => Into.rfl' _
  rw [elemCalls_eq, C88_partial p x.shape fun d hd => ⟨hp d hd, hlt d hd⟩, R.bind_ok]
  rcases Nat.lt_or_ge k (allIndices x.shape).length with h | h
  · have hi := inRange_getElem_allIndices h
    obtain ⟨e, h1, h2⟩ := TL.get_ok hx hi
    have h3 := (TL.getU_into p x _).1 _ ((hback _).1 _ h2)
    have h4 := elems_getElem? hx hi
    rw [rowMajor_getElem_allIndices h, h1] at h4
    rw [List.getElem?_eq_getElem h, h4]
    simp only [h3]
    rfl
  · rw [List.getElem?_eq_none h, List.getElem?_eq_none (by rw [elems_length hx, ← allIndices_length]; exact h)]
    rfl

/-- C88, test: a view of two rows and one column of a 2×3 tensor, called five times; an empty tensor in both profiles. -/
example : ((List.range 5).map fun k => elemCalls .debug (.view ⟨⟨[1, 2, 3, 4, 5, 6], [2, 3]⟩, [2, 1], [⟨0, 2⟩, ⟨1, 2⟩]⟩) k (IndexIter.new [2, 1])) =
      [.ok (some 2), .ok (some 5), .ok none, .ok none, .ok none] ∧
    ((List.range 4).map fun k => (IndexIter.new [3, 0, 2]).calls .debug k) =
      [.ok (some [0, 0, 0]), .ok (some [0, 0, 1]), .error (.panic .overflow), .error (.panic .overflow)] ∧
    ((List.range 4).map fun k => (IndexIter.new [3, 0, 2]).calls .release k) =
      [.ok (some [0, 0, 0]), .ok (some [0, 0, 1]), .ok (some [0, 1, 0]), .ok (some [0, 1, 1])] ∧
    ((List.range 3).map fun k => (IndexIter.new []).calls .release k) = [.ok (some []), .ok none, .ok none] := by decide

end RL
