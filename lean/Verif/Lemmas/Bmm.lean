import Verif.Lemmas.Arith

/-! Helper lemmas: `bmm_raw` -/

namespace RL

open Spec

variable {T : Type}

/-- element or 0; only used where the element exists -/
def ent [Zero T] (x : TL T) (idx : List Nat) : T := (elem? x idx).getD 0

theorem ent_get [Zero T] {x : TL T} (hx : Ok x) {idx : List Nat} (h : InRange x.shape idx) :
    x.get idx = .ok (ent x idx) ∧ elem? x idx = some (ent x idx) := by
  obtain ⟨v, h1, h2⟩ := TL.get_ok hx h
  simp [ent, h1, h2]

/-- left fold of products -/
def dotFold [Zero T] [Add T] [Mul T] (k : Nat) (a b : Nat → T) : T :=
  (List.range k).foldl (fun acc kk => acc + a kk * b kk) 0

theorem bmmEntry_eq [Zero T] [Add T] [Mul T] {l r : TL T} {li ri : List Nat} {rows j : Nat} {a b : Nat → T}
    (ha : ∀ k < rows, l.get (li.set (li.length - 1) k) = .ok (a k))
    (hb : ∀ k < rows, r.get ((ri.set 1 j).set 0 k) = .ok (b k)) :
    bmmEntry l r li ri rows j = .ok (dotFold rows a b) := by
  unfold bmmEntry dotFold
  refine foldlM_ok _ (fun acc kk => acc + a kk * b kk) _ (fun s k hk => ?_) _
  rw [List.mem_range] at hk
  simp [ha k hk, hb k hk]

theorem mapM_ok_of {α β : Type _} (f : α → R β) (g : α → β) (l : List α) (h : ∀ a ∈ l, f a = .ok (g a)) :
    l.mapM f = .ok (l.map g) := by
  induction l with
  | nil => rfl
  | cons a l ih =>
    rw [List.mapM_cons, h a (by simp)]
    rw [ih (fun b hb => h b (by simp [hb]))]
    rfl

theorem inRange2 {m n i j : Nat} : InRange [m, n] [i, j] ↔ i < m ∧ j < n := by
  simp [InRange]

theorem inRange3 {b m n p i j : Nat} : InRange [b, m, n] [p, i, j] ↔ p < b ∧ i < m ∧ j < n := by
  simp [InRange]

theorem foldl_append_flatMap {α β : Type _} (f : α → List β) (l : List α) (acc : List β) :
    l.foldl (fun acc a => acc ++ f a) acc = acc ++ l.flatMap f := by
  induction l generalizing acc with
  | nil => simp
  | cons a l ih => simp [ih]

/-- the row loops with every entry known -/
theorem bmmLoop_eq {nb nrow ncol : Nat} {f : Nat → Nat → Nat → R T} {g : Nat → Nat → Nat → T}
    (h : ∀ p < nb, ∀ i < nrow, ∀ j < ncol, f p i j = .ok (g p i j)) :
    (List.range nb).foldlM (init := ([] : List T)) (fun acc batch =>
      (List.range nrow).foldlM (init := acc) (fun acc i => do
        let row ← (List.range ncol).mapM (fun j => f batch i j)
        return acc ++ row))
    = .ok ((List.range nb).flatMap fun p => (List.range nrow).flatMap fun i => (List.range ncol).map fun j => g p i j) := by
  refine (foldlM_ok _ (fun acc p => acc ++ (List.range nrow).flatMap fun i => (List.range ncol).map fun j => g p i j) _
    (fun acc p hp => ?_) _).trans (by rw [foldl_append_flatMap]; rfl)
  refine (foldlM_ok _ (fun acc i => acc ++ (List.range ncol).map fun j => g p i j) _ (fun acc i hi => ?_) _).trans
    (by rw [foldl_append_flatMap])
  rw [mapM_ok_of _ (fun j => g p i j) _ (fun j hj => h p (List.mem_range.1 hp) i (List.mem_range.1 hi) j (List.mem_range.1 hj))]
  rfl

theorem allIndices3 (nb nrow ncol : Nat) (g : Nat → Nat → Nat → T) :
    ((List.range nb).flatMap fun p => (List.range nrow).flatMap fun i => (List.range ncol).map fun j => g p i j)
    = (allIndices [nb, nrow, ncol]).map (fun idx => g (idx.getD 0 0) (idx.getD 1 0) (idx.getD 2 0)) := by
  simp [allIndices, List.map_flatMap, Function.comp_def, List.flatMap_map]
  simp [List.map_eq_flatMap]

theorem allIndices2 (nrow ncol : Nat) (g : Nat → Nat → T) :
    ((List.range nrow).flatMap fun i => (List.range ncol).map fun j => g i j)
    = (allIndices [nrow, ncol]).map (fun idx => g (idx.getD 0 0) (idx.getD 1 0)) := by
  simp [allIndices, List.map_flatMap, Function.comp_def, List.flatMap_map]
  simp [List.map_eq_flatMap]

theorem map_allIndices_get {α : Type _} {shape idx : List Nat} (f : List Nat → α) (h : InRange shape idx) :
    ((allIndices shape).map f)[rowMajor shape idx]? = some (f idx) := by
  rw [List.getElem?_map, getElem_allIndices_of h]; rfl

theorem bmmRaw2_eq [Zero T] [Add T] [Mul T] {l r : TL T} (hl : Ok l) (hr : Ok r) {m k n : Nat}
    (hls : l.shape = [m, k]) (hrs : r.shape = [k, n]) :
    bmmRaw l r = .ok { array := (allIndices [m, n]).map (fun idx =>
        dotFold k (fun kk => ent l [idx.getD 0 0, kk]) (fun kk => ent r [kk, idx.getD 1 0])), shape := [m, n] } := by
  have key := bmmLoop_eq (nb := 1) (nrow := m) (ncol := n)
    (f := fun p i j => bmmEntry l r (bmmLeftIndex l p i) r.shape k j)
    (g := fun _ i j => dotFold k (fun kk => ent l [i, kk]) (fun kk => ent r [kk, j]))
    (fun p _ i hi j hj => bmmEntry_eq
      (fun kk hk => by
        have e : (bmmLeftIndex l p i).set ((bmmLeftIndex l p i).length - 1) kk = [i, kk] := by
          simp [bmmLeftIndex, hls]
        rw [e]
        exact (ent_get hl (by rw [hls]; exact inRange2.2 ⟨hi, hk⟩)).1)
      (fun kk hk => by
        rw [hrs]
        exact (ent_get hr (by rw [hrs]; exact inRange2.2 ⟨hk, hj⟩)).1))
  have hrs0 : idxR r.shape 0 = .ok k := by simp [hrs, idxR]
  unfold bmmRaw
  have hch : bmmChecks l r = .ok () := by simp [bmmChecks, hls, hrs, idxR]
  have hsh : bmmShape l r = .ok [1, m, n] := by simp [bmmShape, hls, hrs, idxR]
  rw [hch, hsh]
  simp only [R.bind_ok, hrs0]
  simp only [R.bind_ok, idxR, List.getElem?_cons_zero, List.getElem?_cons_succ]
  rw [key]
  rw [← allIndices2 m n (fun i j => dotFold k (fun kk => ent l [i, kk]) (fun kk => ent r [kk, j]))]
  simp [hls]

theorem bmmRaw3_eq [Zero T] [Add T] [Mul T] {l r : TL T} (hl : Ok l) (hr : Ok r) {b m k n : Nat}
    (hls : l.shape = [b, m, k]) (hrs : r.shape = [k, n]) :
    bmmRaw l r = .ok { array := (allIndices [b, m, n]).map (fun idx =>
        dotFold k (fun kk => ent l [idx.getD 0 0, idx.getD 1 0, kk]) (fun kk => ent r [kk, idx.getD 2 0])), shape := [b, m, n] } := by
  have key := bmmLoop_eq (nb := b) (nrow := m) (ncol := n)
    (f := fun p i j => bmmEntry l r (bmmLeftIndex l p i) r.shape k j)
    (g := fun p i j => dotFold k (fun kk => ent l [p, i, kk]) (fun kk => ent r [kk, j]))
    (fun p hp i hi j hj => bmmEntry_eq
      (fun kk hk => by
        have e : (bmmLeftIndex l p i).set ((bmmLeftIndex l p i).length - 1) kk = [p, i, kk] := by
          simp [bmmLeftIndex, hls]
        rw [e]
        exact (ent_get hl (by rw [hls]; exact inRange3.2 ⟨hp, hi, hk⟩)).1)
      (fun kk hk => by
        rw [hrs]
        exact (ent_get hr (by rw [hrs]; exact inRange2.2 ⟨hk, hj⟩)).1))
  have hrs0 : idxR r.shape 0 = .ok k := by simp [hrs, idxR]
  unfold bmmRaw
  have hch : bmmChecks l r = .ok () := by simp [bmmChecks, hls, hrs, idxR]
  have hsh : bmmShape l r = .ok [b, m, n] := by simp [bmmShape, hls, hrs, idxR]
  rw [hch, hsh]
  simp only [R.bind_ok, hrs0]
  simp only [R.bind_ok, idxR, List.getElem?_cons_zero, List.getElem?_cons_succ]
  rw [key]
  rw [← allIndices3 b m n (fun p i j => dotFold k (fun kk => ent l [p, i, kk]) (fun kk => ent r [kk, j]))]
  simp [hls]

end RL
