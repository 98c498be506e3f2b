import Verif.Props.Nn
import Verif.Lemmas.MatAlg

/-!
# Batches and linear algebra (C55-C57)
-/

namespace RL

open Spec

variable {T : Type}

/-! ## rows of a batch (C55) -/

theorem netValue_row [Zero T] [Add T] [Mul T] (ss : List (LayerFn T)) : ∀ (k : Nat) (a c : Nat → Nat → T) (i i' : Nat),
    (∀ j < k, a i j = c i' j) → ∀ j < outWidth k ss, netValue k ss a i j = netValue k ss c i' j := by
  induction ss with
  | nil => exact fun k a c i i' h j hj => h j hj
  | cons s ss ih =>
    intro k a c i i' h j hj
    refine ih s.width _ _ i i' (fun q _ => ?_) j hj
    simp only [affine]
    congr 2
    exact List.foldl_ext _ _ _ fun acc kk hkk => by rw [h kk (List.mem_range.1 hkk)]

/-- C55: whatever the other rows are, and however many there are: if row `i` of one batch equals row `i'` of another, then row `i` of
the first output equals row `i'` of the second, element by element. No law of `+` or `*`. -/
theorem C55_rows [Zero T] [Add T] [Mul T] (mlp : Mlp T) (ss : List (LayerFn T)) (h : Heap T) (x x' : Nat) (xv xv' : Raw T)
    (m m' k i i' : Nat) (hx : dataOf h x = some xv) (hx' : dataOf h x' = some xv') (hs : xv.shape = [m, k]) (hs' : xv'.shape = [m', k])
    (hw : WF xv) (hw' : WF xv') (hl : LayersAre h k mlp.layers ss) (hi : i < m) (hi' : i' < m')
    (hrow : ∀ j < k, Raw.elem? xv [i, j] = Raw.elem? xv' [i', j]) :
    ∃ h1 r v h1' r' v', mlp.forward h x = .ok (h1, r) ∧ dataOf h1 r = some v ∧ v.shape = [m, outWidth k ss] ∧
      mlp.forward h x' = .ok (h1', r') ∧ dataOf h1' r' = some v' ∧ v'.shape = [m', outWidth k ss] ∧
      ∀ j < outWidth k ss, ∃ e, Raw.elem? v [i, j] = some e ∧ Raw.elem? v' [i', j] = some e := by
  have mat : ∀ {u : Raw T} {p : Nat}, WF u → u.shape = [p, k] → Matrix u p k (fun i j => ent (.raw u) [i, j]) := fun hu hus =>
    ⟨hus, hu, fun i hi j hj => (ent_get (x := .raw _) hu (by rw [TL.shape_raw, hus]; exact inRange2.2 ⟨hi, hj⟩)).2⟩
  obtain ⟨h1, r, v, e1, e2, e3, _⟩ := C45_forward mlp ss h x xv m k _ (by omega) hx (mat hw hs) hl
  obtain ⟨h1', r', v', f1, f2, f3, _⟩ := C45_forward mlp ss h x' xv' m' k _ (by omega) hx' (mat hw' hs') hl
  refine ⟨h1, r, v, h1', r', v', e1, e2, e3.1, f1, f2, f3.1, fun j hj => ⟨_, e3.2.2 i hi j hj, ?_⟩⟩
  rw [f3.2.2 i' hi' j hj]
  congr 1
  exact (netValue_row ss k _ _ i i' (fun j hj => by simp only [ent, elem?, hrow j hj]) j hj).symm

attribute [local instance] Test.intFn in
/-- C55, test: the row `[3, 4]` alone and as the second of two rows. -/
example : (do
    let h ← runOps [] [Op.new [1, 2, 3, 4] [2, 2], .new [3, 4] [1, 2], .new [1, 0, 0, -1] [2, 2], .new [1, 1] [1, 2], .new [3, 5] [2, 1], .new [7] [1]]
    let net : Mlp Int := ⟨[Linear.new 2 3 (some reluT), Linear.new 4 5 none]⟩
    let (h1, r) ← net.forward h 0
    let (h2, r') ← net.forward h 1
    return (dataOf h1 r, dataOf h2 r')) = (.ok (some ⟨[13, 19], [2, 1]⟩, some ⟨[19], [1, 1]⟩) : R _) := by decide +kernel

/-! ## laws of the matrix product (C56)

`B` is the batch part of the shape of the left operand, `[]` or `[nb]`. -/

section
variable {B : List Nat} {m k l n : Nat}

/-- C56: associativity; the left operand may be a batch. -/
theorem C56_assoc [NonUnitalSemiring T] (a b c : Raw T) (hB : B.length ≤ 1) (ha : WF a) (hb : WF b) (hc : WF c)
    (has : a.shape = B ++ [m, k]) (hbs : b.shape = [k, l]) (hcs : c.shape = [l, n]) :
    ∃ t, (do let ab ← bmmRaw (.raw a) (.raw b); bmmRaw (.raw ab) (.raw c)) = .ok t ∧
      (do let bc ← bmmRaw (.raw b) (.raw c); bmmRaw (.raw a) (.raw bc)) = .ok t := by
  obtain ⟨ab, e1, s1, w1, v1⟩ := bmm_sum hB ha hb has hbs
  obtain ⟨t, e2, s2, w2, v2⟩ := bmm_sum hB w1 hc s1 hcs
  obtain ⟨bc, e3, s3, w3, v3⟩ := bmm_sum (B := []) (by simp) hb hc hbs hcs
  obtain ⟨t', e4, s4, w4, v4⟩ := bmm_sum hB ha w3 has s3
  refine ⟨t, by rw [e1]; exact e2, ?_⟩
  rw [e3]
  refine e4.trans (congrArg _ (ext_batch w4 w2 s4 s2 fun p hp i hi j hj => ?_))
  rw [v2 p hp i hi j hj, v4 p hp i hi j hj]
  have h1 : ∀ q ∈ Finset.range k, ent (.raw a) (p ++ [i, q]) * ent (.raw bc) [q, j] =
      ∑ z ∈ Finset.range l, ent (.raw a) (p ++ [i, q]) * (ent (.raw b) [q, z] * ent (.raw c) [z, j]) := fun q hq => by
    rw [← Finset.mul_sum]
    exact congrArg _ (v3 [] List.Forall₂.nil q (Finset.mem_range.1 hq) j hj)
  have h2 : ∀ z ∈ Finset.range l, ent (.raw ab) (p ++ [i, z]) * ent (.raw c) [z, j] =
      ∑ q ∈ Finset.range k, ent (.raw a) (p ++ [i, q]) * (ent (.raw b) [q, z] * ent (.raw c) [z, j]) := fun z hz => by
    rw [v1 p hp i hi z (Finset.mem_range.1 hz), Finset.sum_mul]
    exact Finset.sum_congr rfl fun q _ => mul_assoc _ _ _
  rw [Finset.sum_congr rfl h1, Finset.sum_congr rfl h2, Finset.sum_comm]

/-- C56: `(a + a') b = a b + a' b`. -/
theorem C56_add_left [NonUnitalNonAssocSemiring T] (a a' b : Raw T) (hB : B.length ≤ 1) (ha : WF a) (ha' : WF a') (hb : WF b)
    (has : a.shape = B ++ [m, k]) (has' : a'.shape = B ++ [m, k]) (hbs : b.shape = [k, n]) (hp : Pos (B ++ [m, k])) (hn : 0 < n) :
    ∃ t, (do let s ← addRaw (.raw a) (.raw a'); bmmRaw (.raw s) (.raw b)) = .ok t ∧
      (do let x ← bmmRaw (.raw a) (.raw b); let y ← bmmRaw (.raw a') (.raw b); addRaw (.raw x) (.raw y)) = .ok t := by
  have hp' : Pos (B ++ [m, n]) := by
    intro d hd
    rcases List.mem_append.1 hd with h | h
    · exact hp d (List.mem_append_left _ h)
    · rcases List.mem_cons.1 h with rfl | h
      · exact hp _ (by simp)
      · simp at h; omega
  obtain ⟨s, e1, s1, w1, v1⟩ := add_ent ha ha' (has.trans has'.symm) (has ▸ hp)
  obtain ⟨t, e2, s2, w2, v2⟩ := bmm_sum hB w1 hb (s1.trans has) hbs
  obtain ⟨x, e3, s3, w3, v3⟩ := bmm_sum hB ha hb has hbs
  obtain ⟨y, e4, s4, w4, v4⟩ := bmm_sum hB ha' hb has' hbs
  obtain ⟨t', e5, s5, w5, v5⟩ := add_ent w3 w4 (s3.trans s4.symm) (s3 ▸ hp')
  refine ⟨t, by rw [e1]; exact e2, ?_⟩
  rw [e3, e4]
  refine e5.trans (congrArg _ (ext_batch w5 w2 (s5.trans s3) s2 fun p hp i hi j hj => ?_))
  rw [v5 _ (by rw [s3]; exact inRange_batch hp hi hj), v3 p hp i hi j hj, v4 p hp i hi j hj, v2 p hp i hi j hj, ← Finset.sum_add_distrib]
  refine Finset.sum_congr rfl fun q hq => ?_
  rw [v1 _ (by rw [has]; exact inRange_batch hp hi (Finset.mem_range.1 hq)), add_mul]

/-- C56: `a (b + b') = a b + a b'`. -/
theorem C56_add_right [NonUnitalNonAssocSemiring T] (a b b' : Raw T) (hB : B.length ≤ 1) (ha : WF a) (hb : WF b) (hb' : WF b')
    (has : a.shape = B ++ [m, k]) (hbs : b.shape = [k, n]) (hbs' : b'.shape = [k, n]) (hp : Pos (B ++ [m, k])) (hn : 0 < n) :
    ∃ t, (do let s ← addRaw (.raw b) (.raw b'); bmmRaw (.raw a) (.raw s)) = .ok t ∧
      (do let x ← bmmRaw (.raw a) (.raw b); let y ← bmmRaw (.raw a) (.raw b'); addRaw (.raw x) (.raw y)) = .ok t := by
  have hk : 0 < k := hp k (by simp)
  have hp' : Pos (B ++ [m, n]) := by
    intro d hd
    rcases List.mem_append.1 hd with h | h
    · exact hp d (List.mem_append_left _ h)
    · rcases List.mem_cons.1 h with rfl | h
      · exact hp _ (by simp)
      · simp at h; omega
  obtain ⟨s, e1, s1, w1, v1⟩ := add_ent hb hb' (hbs.trans hbs'.symm) (by rw [hbs]; simp [Pos]; omega)
  obtain ⟨t, e2, s2, w2, v2⟩ := bmm_sum hB ha w1 has (s1.trans hbs)
  obtain ⟨x, e3, s3, w3, v3⟩ := bmm_sum hB ha hb has hbs
  obtain ⟨y, e4, s4, w4, v4⟩ := bmm_sum hB ha hb' has hbs'
  obtain ⟨t', e5, s5, w5, v5⟩ := add_ent w3 w4 (s3.trans s4.symm) (s3 ▸ hp')
  refine ⟨t, by rw [e1]; exact e2, ?_⟩
  rw [e3, e4]
  refine e5.trans (congrArg _ (ext_batch w5 w2 (s5.trans s3) s2 fun p hp i hi j hj => ?_))
  rw [v5 _ (by rw [s3]; exact inRange_batch hp hi hj), v3 p hp i hi j hj, v4 p hp i hi j hj, v2 p hp i hi j hj, ← Finset.sum_add_distrib]
  refine Finset.sum_congr rfl fun q hq => ?_
  rw [v1 _ (by rw [hbs]; exact inRange2.2 ⟨Finset.mem_range.1 hq, hj⟩), mul_add]

/-- C56: scalars move out of either operand. -/
theorem C56_scalar [CommSemiring T] (s : T) (a b : Raw T) (hB : B.length ≤ 1) (ha : WF a) (hb : WF b)
    (has : a.shape = B ++ [m, k]) (hbs : b.shape = [k, n]) :
    ∃ t, (do let x ← mulRaw (Raw.scalar s) (.raw a); bmmRaw (.raw x) (.raw b)) = .ok t ∧
      (do let y ← mulRaw (Raw.scalar s) (.raw b); bmmRaw (.raw a) (.raw y)) = .ok t ∧
      (do let x ← bmmRaw (.raw a) (.raw b); mulRaw (Raw.scalar s) (.raw x)) = .ok t := by
  obtain ⟨wa, va⟩ := map_ent ha (fun v => s * v)
  obtain ⟨wb, vb⟩ := map_ent hb (fun v => s * v)
  obtain ⟨x, e1, s1, w1, v1⟩ := bmm_sum hB ha hb has hbs
  obtain ⟨y, e2, s2, w2, v2⟩ := bmm_sum (b := b) hB wa hb has hbs
  obtain ⟨z, e3, s3, w3, v3⟩ := bmm_sum (a := a) hB ha wb has hbs
  obtain ⟨wx, vx⟩ := map_ent w1 (fun v => s * v)
  refine ⟨_, ?_, ?_, by rw [e1, R.bind_ok]; exact (C14_left_partial s x w1).1⟩
  · rw [(C14_left_partial s a ha).1]
    refine e2.trans (congrArg _ (ext_batch w2 wx s2 s1 fun p hp i hi j hj => ?_))
    rw [vx _ (by rw [s1]; exact inRange_batch hp hi hj), v1 p hp i hi j hj, v2 p hp i hi j hj, Finset.mul_sum]
    refine Finset.sum_congr rfl fun q hq => ?_
    rw [va _ (by rw [has]; exact inRange_batch hp hi (Finset.mem_range.1 hq)), mul_assoc]
  · rw [(C14_left_partial s b hb).1]
    refine e3.trans (congrArg _ (ext_batch w3 wx s3 s1 fun p hp i hi j hj => ?_))
    rw [vx _ (by rw [s1]; exact inRange_batch hp hi hj), v1 p hp i hi j hj, v3 p hp i hi j hj, Finset.mul_sum]
    refine Finset.sum_congr rfl fun q hq => ?_
    rw [vb _ (by rw [hbs]; exact inRange2.2 ⟨Finset.mem_range.1 hq, hj⟩), mul_left_comm]

theorem ent_matrix [Zero T] {v : Raw T} {f : Nat → Nat → T} (h : Matrix v m n f) {i j : Nat} (hi : i < m) (hj : j < n) :
    ent (.raw v) [i, j] = f i j := by
  simp [ent, elem?, h.2.2 i hi j hj]

/-- C56: the identity matrix changes nothing, on either side. -/
theorem C56_one [NonAssocSemiring T] (a e : Raw T) (hB : B.length ≤ 1) (ha : WF a) (has : a.shape = B ++ [m, n])
    (he : Matrix e n n (fun i j => if i = j then 1 else 0)) :
    bmmRaw (.raw a) (.raw e) = .ok a ∧
    ∀ b : Raw T, WF b → b.shape = [n, l] → bmmRaw (.raw e) (.raw b) = .ok b := by
  constructor
  · obtain ⟨t, e1, s1, w1, v1⟩ := bmm_sum hB ha he.2.1 has he.1
    refine e1.trans (congrArg _ (ext_batch w1 ha s1 has fun p hp i hi j hj => ?_))
    rw [v1 p hp i hi j hj, Finset.sum_eq_single j]
    · simp [ent_matrix he hj hj]
    · intro q hq hqj
      simp [ent_matrix he (Finset.mem_range.1 hq) hj, hqj]
    · intro hq
      exact absurd (Finset.mem_range.2 hj) hq
  · intro b hb hbs
    obtain ⟨t, e1, s1, w1, v1⟩ := bmm_sum (B := []) (by simp) he.2.1 hb he.1 hbs
    refine e1.trans (congrArg _ (ext_batch (B := []) w1 hb s1 hbs fun p hp i hi j hj => ?_))
    obtain rfl : p = [] := by simpa [InRange] using hp
    rw [v1 [] hp i hi j hj, Finset.sum_eq_single i]
    · simp only [List.nil_append]
      rw [ent_matrix he hi hi]
      simp
    · intro q hq hqi
      simp only [List.nil_append]
      rw [ent_matrix he hi (Finset.mem_range.1 hq), if_neg (Ne.symm hqi), zero_mul]
    · intro hq
      exact absurd (Finset.mem_range.2 hi) hq

/-- C56, test: a batch of two matrices with one row each, times two matrices. -/
example : (do let ab ← bmmRaw (.raw (⟨[1, 2, 3, 4], [2, 1, 2]⟩ : Raw Int)) (.raw ⟨[1, 2, 3, 4], [2, 2]⟩); bmmRaw (.raw ab) (.raw ⟨[5, 6], [2, 1]⟩)) =
    .ok ⟨[95, 207], [2, 1, 1]⟩ := by decide +kernel

/-- C56, test: the identity matrix of size 2. -/
example : Matrix (⟨[1, 0, 0, 1], [2, 2]⟩ : Raw Int) 2 2 (fun i j => if i = j then 1 else 0) := by
  refine ⟨rfl, rfl, fun i hi j hj => ?_⟩
  match i, j, hi, hj with
  | 0, 0, _, _ => rfl
  | 0, 1, _, _ => rfl
  | 1, 0, _, _ => rfl
  | 1, 1, _, _ => rfl

end

/-! ## the sum of all elements (C57) -/

theorem foldl_sum [AddCommMonoid T] (l : List T) : l.foldl (fun acc v => acc + v) 0 = l.sum := by
  rw [List.sum_eq_foldl]

/-- C57: the sum of a sum is the sum of the sums. -/
theorem C57_add [AddCommMonoid T] (a b : Raw T) (ha : WF a) (hb : WF b) (hs : a.shape = b.shape) (hp : Pos a.shape) :
    ∃ t, (do let s ← addRaw (.raw a) (.raw b); (TL.raw s).sum) = .ok t ∧
      (do let x ← (TL.raw a).sum; let y ← (TL.raw b).sum; addRaw (.raw x) (.raw y)) = .ok t := by
  have la : a.array.length = a.shape.prod := ha
  have lb : b.array.length = a.shape.prod := by rw [hs]; exact hb
  rw [addRaw_same ha hb hs hp, C16_sum (.raw a) ha (.inl ⟨_, rfl⟩), C16_sum (.raw b) hb (.inl ⟨_, rfl⟩)]
  simp only [R.bind_ok]
  have hone : ∀ x y : T, addRaw (.raw (⟨[x], []⟩ : Raw T)) (.raw ⟨[y], []⟩) = .ok ⟨[x + y], []⟩ := fun x y =>
    addRaw_same (l := ⟨[x], []⟩) (r := ⟨[y], []⟩) (by rfl) (by rfl) rfl (by simp [Pos])
  rw [hone, C16_sum (.raw _) (by simp [Ok, WF, la, lb]) (.inl ⟨_, rfl⟩),
    elems_raw ha, elems_raw hb, elems_raw (by simp [WF, la, lb])]
  refine ⟨_, rfl, ?_⟩
  simp only [foldl_sum]
  congr 3
  have : ∀ (l r : List T), l.length = r.length → l.sum + r.sum = (List.zipWith (· + ·) l r).sum := by
    intro l
    induction l with
    | nil => intro r hr; cases r <;> simp_all
    | cons x l ih =>
      intro r hr
      cases r with
      | nil => simp at hr
      | cons y r =>
        simp only [List.zipWith_cons_cons, List.sum_cons]
        rw [← ih r (by simpa using hr), add_add_add_comm]
  exact this _ _ (la.trans lb.symm)

/-- C57: a scalar moves out of the sum. -/
theorem C57_scalar [NonUnitalNonAssocSemiring T] (s : T) (a : Raw T) (ha : WF a) :
    ∃ t, (do let x ← mulRaw (Raw.scalar s) (.raw a); (TL.raw x).sum) = .ok t ∧
      (do let x ← (TL.raw a).sum; mulRaw (Raw.scalar s) (.raw x)) = .ok t := by
  have la : a.array.length = a.shape.prod := ha
  rw [(C14_left_partial s a ha).1, C16_sum (.raw a) ha (.inl ⟨_, rfl⟩)]
  simp only [R.bind_ok]
  rw [(C14_left_partial s ⟨[_], []⟩ rfl).1, C16_sum (.raw _) (by simp [Ok, WF, la]) (.inl ⟨_, rfl⟩), elems_raw ha, elems_raw (by simp [WF, la])]
  refine ⟨_, rfl, ?_⟩
  simp only [foldl_sum, List.map_cons, List.map_nil]
  rw [List.sum_map_mul_left, List.map_id']

/-- C57: negation moves out of the sum. -/
theorem C57_neg [AddCommGroup T] (a : Raw T) (ha : WF a) :
    ∃ t, (do let x ← negRaw (.raw a); (TL.raw x).sum) = .ok t ∧ (do let x ← (TL.raw a).sum; negRaw (.raw x)) = .ok t := by
  have la : a.array.length = a.shape.prod := ha
  rw [negRaw_raw ha, C16_sum (.raw a) ha (.inl ⟨_, rfl⟩)]
  simp only [R.bind_ok]
  rw [negRaw_raw (t := ⟨[_], []⟩) rfl, C16_sum (.raw _) (by simp [Ok, WF, la]) (.inl ⟨_, rfl⟩), elems_raw ha, elems_raw (by simp [WF, la])]
  refine ⟨_, rfl, ?_⟩
  simp only [foldl_sum, List.map_cons, List.map_nil]
  rw [List.sum_neg]

/-- C57: neither the order of the elements nor the shape matters. -/
theorem C57_perm [AddCommMonoid T] (a b : Raw T) (ha : WF a) (hb : WF b) (hp : a.array.Perm b.array) : (TL.raw a).sum = (TL.raw b).sum := by
  rw [C16_sum (.raw a) ha (.inl ⟨_, rfl⟩), C16_sum (.raw b) hb (.inl ⟨_, rfl⟩), elems_raw ha, elems_raw hb]
  simp only [foldl_sum, hp.sum_eq]

/-- C57, test. -/
example : (do let s ← addRaw (.raw (⟨[1, 2, 3, 4], [2, 2]⟩ : Raw Int)) (.raw ⟨[5, 6, 7, 8], [2, 2]⟩); (TL.raw s).sum) = .ok ⟨[36], []⟩ := by
  decide

/-- C57, test: the laws of addition are needed; with a saturating signed byte the order of the elements matters. -/
example : let add : Int → Int → Int := fun a b => max (-128) (min 127 (a + b))
    ([100, 100, -100].foldl add 0, [100, -100, 100].foldl add 0) = (27, 100) := by decide

end RL
