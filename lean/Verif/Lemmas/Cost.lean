import Verif.Props.Graph3
import Verif.Props.Nn
import Verif.Model.Train

/-!
# Number of paths from a tensor (C60)
-/

namespace RL

open Spec

variable {T : Type} [Zero T] [One T] [Add T] [Mul T] [Sub T] [Neg T] [LT T] [DecidableLT T] [LE T] [DecidableLE T] [RealFn T]

theorem Spec.Path.frame_iff {h h' : Heap T} (hg : h.Good) (hf : Frame h h') {l t : Nat} {p : List Nat} (hl : l < h.length) :
    Path h' l t p ↔ Path h l t p := by
  refine ⟨fun hp => ?_, fun hp => hp.frame hf⟩
  have old : ∀ {l : Nat} {n : Node T} {d : Deriv}, l < h.length → h'[l]? = some n → n.gradFn = some d →
      ∃ m, h[l]? = some m ∧ m.gradFn = some d := by
    intro l n d hl h1 h2
    obtain ⟨g, hg⟩ := hf.get (List.getElem?_eq_getElem hl)
    rw [h1] at hg
    cases hg
    exact ⟨_, List.getElem?_eq_getElem hl, h2⟩
  induction hp with
  | one h1 h2 h3 =>
    obtain ⟨m, h4, h5⟩ := old hl h1 h2
    exact .one h4 h5 h3
  | cons h1 h2 h3 _ ih =>
    obtain ⟨m, h4, h5⟩ := old hl h1 h2
    exact .cons h4 h5 h3 (ih (((hg _ m h4).older _ h5 _ (List.mem_of_getElem? h3)).trans hl))

theorem Spec.Path.lt {h : Heap T} {l t : Nat} {p : List Nat} (hp : Path h l t p) : l < h.length := by
  cases hp with
  | one h1 _ _ => exact getElem?_lt h1
  | cons h1 _ _ _ => exact getElem?_lt h1

theorem Spec.Path.append {h : Heap T} {l m t : Nat} {p q : List Nat} (hp : Path h l m p) (hq : Path h m t q) : Path h l t (p ++ q) := by
  induction hp with
  | one h1 h2 h3 => exact .cons h1 h2 h3 hq
  | cons h1 h2 h3 _ ih => exact .cons h1 h2 h3 (ih hq)

theorem Spec.Ways.unique {h : Heap T} {l w w' : Nat} (h1 : Ways h l w) (h2 : Ways h l w') : w = w' := by
  obtain ⟨ps, n1, m1, rfl⟩ := h1
  obtain ⟨qs, n2, m2, rfl⟩ := h2
  have : ps.Perm qs := (List.perm_ext_iff_of_nodup n1 n2).2 fun ⟨t, p⟩ => by rw [m1, m2]
  exact this.length_eq

theorem Spec.Ways.frame {h h' : Heap T} (hg : h.Good) (hf : Frame h h') {l w : Nat} (hl : l < h.length) (hw : Ways h l w) : Ways h' l w := by
  obtain ⟨ps, n1, m1, rfl⟩ := hw
  exact ⟨ps, n1, fun t p => by rw [m1, Path.frame_iff hg hf hl], rfl⟩

theorem ways_leaf {h : Heap T} {l : Nat} {n : Node T} (hn : h[l]? = some n) (hd : n.gradFn = none) : Ways h l 0 := by
  refine ⟨[], List.nodup_nil, fun t p => ⟨fun h => by simp at h, fun hp => ?_⟩, rfl⟩
  cases hp with
  | one h1 h2 _ => rw [hn] at h1; cases h1; rw [hd] at h2; cases h2
  | cons h1 h2 _ _ => rw [hn] at h1; cases h1; rw [hd] at h2; cases h2

theorem ways_exists {h : Heap T} (hg : h.Good) {l : Nat} (hl : l < h.length) : ∃ w, Ways h l w := by
  cases hd : h[l].gradFn with
  | none => exact ⟨0, ways_leaf (List.getElem?_eq_getElem hl) hd⟩
  | some d => exact ⟨_, pathsOf h.length h d, (pathsOf_nodup _ _).1, fun t p =>
      mem_pathsOf hg (List.getElem?_eq_getElem hl) hd hl.le, rfl⟩

theorem path_inv {h : Heap T} {l : Nat} {n : Node T} {d : Deriv} (hn : h[l]? = some n) (hd : n.gradFn = some d) {t : Nat} {p : List Nat} :
    Path h l t p ↔ ∃ k i, d.inputs[k]? = some i ∧ ((i = t ∧ p = [k]) ∨ ∃ q, p = k :: q ∧ Path h i t q) := by
  constructor
  · intro hp
    cases hp with
    | one h1 h2 h3 =>
      rw [hn] at h1; cases h1; rw [hd] at h2; cases h2
      exact ⟨_, _, h3, .inl ⟨rfl, rfl⟩⟩
    | cons h1 h2 h3 h4 =>
      rw [hn] at h1; cases h1; rw [hd] at h2; cases h2
      exact ⟨_, _, h3, .inr ⟨_, rfl, h4⟩⟩
  · rintro ⟨k, i, hk, ⟨rfl, rfl⟩ | ⟨q, rfl, hq⟩⟩
    · exact .one hn hd hk
    · exact .cons hn hd hk hq

theorem path_ne_nil {h : Heap T} {l t : Nat} {p : List Nat} (hp : Path h l t p) : p ≠ [] := by
  cases hp <;> simp

/-- the paths through one input -/
theorem ways_input {h : Heap T} {a wa : Nat} (ha : Ways h a wa) (k : Nat) : ∃ ps : List (Nat × List Nat), ps.Nodup ∧
    (∀ t p, (t, p) ∈ ps ↔ (a = t ∧ p = [k]) ∨ ∃ q, p = k :: q ∧ Path h a t q) ∧ ps.length = 1 + wa := by
  obtain ⟨ps, n1, m1, rfl⟩ := ha
  refine ⟨(a, [k]) :: ps.map fun x => (x.1, k :: x.2), ?_, ?_, by simp [Nat.add_comm]⟩
  · rw [List.nodup_cons]
    constructor
    · intro hm
      obtain ⟨⟨t, p⟩, hx, e⟩ := List.mem_map.1 hm
      simp only [Prod.mk.injEq, List.cons.injEq, true_and] at e
      exact path_ne_nil ((m1 t p).1 hx) e.2
    · refine List.Nodup.map (fun x y e => ?_) n1
      simp only [Prod.mk.injEq, List.cons.injEq, true_and] at e
      exact Prod.ext e.1 e.2
  · intro t p
    simp only [List.mem_cons, Prod.mk.injEq, List.mem_map, Prod.exists]
    constructor
    · rintro (⟨rfl, rfl⟩ | ⟨t', q, hq, rfl, rfl⟩)
      · exact .inl ⟨rfl, rfl⟩
      · exact .inr ⟨q, rfl, (m1 _ _).1 hq⟩
    · rintro (⟨rfl, rfl⟩ | ⟨q, rfl, hq⟩)
      · exact .inl ⟨rfl, rfl⟩
      · exact .inr ⟨t, q, (m1 _ _).2 hq, rfl, rfl⟩

theorem ways_one {h : Heap T} {l a wa : Nat} {n : Node T} {k : JvpKind} (hn : h[l]? = some n) (hd : n.gradFn = some ⟨[a], k⟩)
    (ha : Ways h a wa) : Ways h l (1 + wa) := by
  obtain ⟨ps, n1, m1, e⟩ := ways_input ha 0
  refine ⟨ps, n1, fun t p => ?_, e⟩
  rw [m1, path_inv hn hd]
  constructor
  · exact fun h => ⟨0, a, rfl, h⟩
  · rintro ⟨k, i, hk, h⟩
    rcases k with _ | k
    · cases hk; exact h
    · simp at hk

theorem ways_two {h : Heap T} {l a b wa wb : Nat} {n : Node T} {k : JvpKind} (hn : h[l]? = some n) (hd : n.gradFn = some ⟨[a, b], k⟩)
    (ha : Ways h a wa) (hb : Ways h b wb) : Ways h l (2 + wa + wb) := by
  obtain ⟨ps, n1, m1, e1⟩ := ways_input ha 0
  obtain ⟨qs, n2, m2, e2⟩ := ways_input hb 1
  refine ⟨ps ++ qs, List.nodup_append.2 ⟨n1, n2, ?_⟩, fun t p => ?_, by rw [List.length_append, e1, e2]; omega⟩
  · rintro ⟨t, p⟩ h1 ⟨t', p'⟩ h2 e
    cases e
    rcases (m1 t p).1 h1 with ⟨_, rfl⟩ | ⟨q, rfl, _⟩ <;> rcases (m2 _ _).1 h2 with ⟨_, e⟩ | ⟨q', e, _⟩ <;> simp at e
  · rw [List.mem_append, m1, m2, path_inv hn hd]
    constructor
    · rintro (h | h)
      · exact ⟨0, a, rfl, h⟩
      · exact ⟨1, b, rfl, h⟩
    · rintro ⟨k, i, hk, h⟩
      rcases k with _ | _ | k
      · cases hk; exact .inl h
      · cases hk; exact .inr h
      · simp at hk

theorem unary_ways {h : Heap T} {t wt : Nat} {n : Node T} {v : Raw T} {g : Option Nat} {k : JvpKind} (hg : h.Good) (hn : h[t]? = some n)
    (hw : Ways h t wt) : Ways (h ++ [⟨v, g, some ⟨[t], k⟩⟩]) h.length (1 + wt) :=
  ways_one (n := ⟨v, g, some ⟨[t], k⟩⟩) (by simp) rfl (hw.frame hg (Frame.append _ _) (getElem?_lt hn))

theorem binary_ways {h : Heap T} {l r wl wr : Nat} {ln rn : Node T} {v : Raw T} {k : JvpKind} (hg : h.Good) (hl : h[l]? = some ln)
    (hr : h[r]? = some rn) (h1 : Ways h l wl) (h2 : Ways h r wr) : Ways (h ++ [⟨v, none, some ⟨[l, r], k⟩⟩]) h.length (2 + wl + wr) :=
  ways_two (n := ⟨v, none, some ⟨[l, r], k⟩⟩) (by simp) rfl (h1.frame hg (Frame.append _ _) (getElem?_lt hl)) (h2.frame hg (Frame.append _ _) (getElem?_lt hr))

theorem addT_ways {h h' : Heap T} {l r id wl wr : Nat} (hg : h.Good) (e : addT h l r = .ok (h', id)) (h1 : Ways h l wl) (h2 : Ways h r wr) :
    Ways h' id (2 + wl + wr) := by
  obtain ⟨ln, rn, v, hl, hr, -, rfl, rfl⟩ := addT_inv e
  exact binary_ways hg hl hr h1 h2

theorem bmmT_ways {h h' : Heap T} {l r id wl wr : Nat} (hg : h.Good) (e : bmmT h l r = .ok (h', id)) (h1 : Ways h l wl) (h2 : Ways h r wr) :
    Ways h' id (2 + wl + wr) := by
  simp only [bmmT, R.bind_eq_ok, Heap.node_eq_ok, R.pure_eq_ok, Heap.alloc] at e
  obtain ⟨ln, hl, rn, hr, v, hv, e⟩ := e
  cases e
  exact binary_ways hg hl hr h1 h2

theorem negT_ways {h h' : Heap T} {t id wt : Nat} (hg : h.Good) (e : negT h t = .ok (h', id)) (h1 : Ways h t wt) : Ways h' id (1 + wt) := by
  obtain ⟨n, v, hn, -, rfl, rfl⟩ := negT_inv e
  exact unary_ways hg hn h1

theorem absT_ways {h h' : Heap T} {t id wt : Nat} (hg : h.Good) (e : absT h t = .ok (h', id)) (h1 : Ways h t wt) : Ways h' id (1 + wt) := by
  simp only [absT, R.bind_eq_ok, Heap.node_eq_ok, R.pure_eq_ok, Heap.alloc] at e
  obtain ⟨n, hn, v, hv, e⟩ := e
  cases e
  exact unary_ways hg hn h1

theorem sumT_ways {h h' : Heap T} {t id wt : Nat} (hg : h.Good) (e : sumT h t = .ok (h', id)) (h1 : Ways h t wt) : Ways h' id (1 + wt) := by
  have hf := (sumT_allocs e).frame
  obtain ⟨n, v, hn, -, rfl, rfl⟩ := sumT_inv e
  refine ways_one (k := .sum) (n := ⟨v, some h.length, some ⟨[t], .sum⟩⟩) ?_ rfl (h1.frame hg hf (getElem?_lt hn))
  simp

theorem subT_ways {h h' : Heap T} {l r id wl wr : Nat} (hg : h.Good) (e : subT h l r = .ok (h', id)) (hl : l < h.length) (h1 : Ways h l wl)
    (h2 : Ways h r wr) : Ways h' id (3 + wl + wr) := by
  simp only [subT, R.bind_eq_ok, Prod.exists] at e
  obtain ⟨h1', n, e1, e2⟩ := e
  have ha := negT_allocs e1
  have := addT_ways (ha.2 hg) e2 (h1.frame hg ha.frame hl) (negT_ways hg e1 h2)
  have hs : 2 + wl + (1 + wr) = 3 + wl + wr := by omega
  exact hs ▸ this

/-! ### activations -/

theorem runOps_one {h h' : Heap T} {op : Op T} {e : R (Heap T × Nat)} {r : Nat} (ho : op.run h = (do return (← e).1)) (he : e = .ok (h', r)) :
    ∃ ops, runOps h ops = .ok h' :=
  ⟨[op], by rw [runOps_cons, ho, he]; rfl⟩

theorem extends_identity : Extends (Activation.identity (T := T)) 0 := by
  intro h h' t r w _ e hw
  cases e
  exact ⟨⟨[], rfl⟩, by rw [Nat.zero_add]; exact hw, .inl rfl⟩

theorem extends_relu : Extends (reluT (T := T)) 1 := by
  intro h h' t r w hr e hw
  refine ⟨runOps_one (op := .relu t) rfl e, ?_⟩
  simp only [reluT, R.bind_eq_ok, Heap.node_eq_ok, R.pure_eq_ok, Heap.alloc] at e
  obtain ⟨n, hn, v, hv, e⟩ := e
  cases e
  exact ⟨unary_ways hr.good hn hw, .inr ⟨[0], .one (n := ⟨v, none, some ⟨[t], .relu⟩⟩) (by simp) rfl rfl⟩⟩

theorem extends_tanh : Extends (tanhT (T := T)) 1 := by
  intro h h' t r w hr e hw
  refine ⟨runOps_one (op := .tanh t) rfl e, ?_⟩
  simp only [tanhT, R.bind_eq_ok, Heap.node_eq_ok, R.pure_eq_ok, Heap.alloc] at e
  obtain ⟨n, hn, v, hv, e⟩ := e
  cases e
  exact ⟨unary_ways hr.good hn hw, .inr ⟨[0], .one (n := ⟨v, none, some ⟨[t], .tanh⟩⟩) (by simp) rfl rfl⟩⟩

/-! ### a forward pass and the loss -/

theorem linear_ways {layer : Linear T} {c : Nat} (hc : Extends layer.activation c) {h h' : Heap T} {x r wx ww wb : Nat} (hr : Reachable h)
    (e : layer.forward h x = .ok (h', r)) (h1 : Ways h x wx) (h2 : Ways h layer.weights ww) (h3 : Ways h layer.bias wb)
    (hb : layer.bias < h.length) :
    (∃ ops, runOps h ops = .ok h') ∧ Ways h' r (4 + c + wx + ww + wb) ∧ ∃ p, Path h' r layer.bias p := by
  simp only [Linear.forward, R.bind_eq_ok, Prod.exists] at e
  obtain ⟨ha, y, e1, hz, z, e2, e3⟩ := e
  obtain ⟨o1, r1⟩ := runOps_one (op := .bmm x layer.weights) rfl e1
  obtain ⟨o2, r2⟩ := runOps_one (op := .add y layer.bias) rfl e2
  have ra := hr.run r1
  have rz := ra.run r2
  have w1 := bmmT_ways hr.good e1 h1 h2
  have w2 := addT_ways ra.good e2 w1 (h3.frame hr.good (runOps_frame hr.good r1).1 hb)
  obtain ⟨⟨o3, r3⟩, w3, hp⟩ := hc _ _ _ _ _ rz e3 w2
  refine ⟨⟨o1 ++ (o2 ++ o3), by rw [runOps_append, r1, R.bind_ok, runOps_append, r2, R.bind_ok, r3]⟩, ?_, ?_⟩
  · have hs : c + (2 + (2 + wx + ww) + wb) = 4 + c + wx + ww + wb := by omega
    exact hs ▸ w3
  · have hz : Path hz z layer.bias [1] := by
      obtain ⟨ln, rn, v, hl, hr, -, rfl, rfl⟩ := addT_inv e2
      exact .one (n := ⟨v, none, some ⟨[y, layer.bias], .add⟩⟩) (by simp) rfl rfl
    have hz' := hz.frame (runOps_frame rz.good r3).1
    rcases hp with rfl | ⟨p, hp⟩
    · exact ⟨_, hz'⟩
    · exact Spec.Ancestor.path (hz'.ancestor.trans hp.ancestor)

theorem forward_ways {cost : Activation T → Nat} {W : Nat → Nat} : ∀ (ls : List (Linear T)) {h h' : Heap T} {x r wx : Nat}, Reachable h →
    (∀ l ∈ ls, Extends l.activation (cost l.activation)) → (∀ p ∈ (⟨ls⟩ : Mlp T).params, p < h.length ∧ Ways h p (W p)) → x < h.length →
    Ways h x wx → (⟨ls⟩ : Mlp T).forward h x = .ok (h', r) →
    (∃ ops, runOps h ops = .ok h') ∧ r < h'.length ∧
      Ways h' r (wx + (ls.map fun l => 4 + cost l.activation).sum + ((⟨ls⟩ : Mlp T).params.map W).sum) := by
  intro ls
  induction ls with
  | nil =>
    intro h h' x r wx _ _ _ hl hx e
    cases e
    exact ⟨⟨[], rfl⟩, hl, hx⟩
  | cons l ls ih =>
    intro h h' x r wx hr hc hp hl hx e
    rw [(C46_params _ _).2] at hp
    simp only [Mlp.forward, List.foldlM_cons, R.bind_eq_ok, Prod.exists] at e
    obtain ⟨h1, y, e1, e2⟩ := e
    obtain ⟨⟨o1, r1⟩, w1, q, hq⟩ := linear_ways (hc l (by simp)) hr e1 hx (hp l.weights (by simp)).2 (hp l.bias (by simp)).2 (hp l.bias (by simp)).1
    have hf := (runOps_frame hr.good r1).1
    have hp' : ∀ p ∈ (⟨ls⟩ : Mlp T).params, p < h1.length ∧ Ways h1 p (W p) := by
      intro p hm
      obtain ⟨a, b⟩ := hp p (by simp [hm])
      exact ⟨a.trans_le hf.len, b.frame hr.good hf a⟩
    obtain ⟨⟨o2, r2⟩, hl2, w2⟩ := ih (hr.run r1) (fun l hl => hc l (by simp [hl])) hp' hq.lt w1 e2
    refine ⟨⟨o1 ++ o2, by rw [runOps_append, r1, R.bind_ok, r2]⟩, hl2, ?_⟩
    rw [(C46_params _ _).2]
    simp only [List.map_cons, List.sum_cons]
    have hs : ∀ a b : Nat, 4 + cost l.activation + wx + W l.weights + W l.bias + a + b =
      wx + (4 + cost l.activation + a) + (W l.weights + (W l.bias + b)) := by intros; omega
    rw [hs] at w2
    exact w2

/-- the last layer's bias is reached from the result -/
theorem forward_path : ∀ (ls : List (Linear T)) {h h' : Heap T} {x r : Nat} {last : Linear T}, Reachable h →
    (∀ l ∈ ls, ∃ c, Extends l.activation c) → (∀ p ∈ (⟨ls⟩ : Mlp T).params, p < h.length) → x < h.length →
    (⟨ls⟩ : Mlp T).forward h x = .ok (h', r) → ls.getLast? = some last → ∃ p, Path h' r last.bias p := by
  intro ls
  induction ls with
  | nil => intro h h' x r last _ _ _ _ _ hl; simp at hl
  | cons l ls ih =>
    intro h h' x r last hr hc hp hx e hl
    rw [(C46_params _ _).2] at hp
    simp only [Mlp.forward, List.foldlM_cons, R.bind_eq_ok, Prod.exists] at e
    obtain ⟨h1, y, e1, e2⟩ := e
    obtain ⟨c, hc1⟩ := hc l (by simp)
    obtain ⟨wx, h2⟩ := ways_exists hr.good hx
    obtain ⟨ww, h3⟩ := ways_exists hr.good (hp l.weights (by simp))
    obtain ⟨wb, h4⟩ := ways_exists hr.good (hp l.bias (by simp))
    obtain ⟨⟨o1, r1⟩, w1, q, hq⟩ := linear_ways hc1 hr e1 h2 h3 h4 (hp l.bias (by simp))
    have hf := (runOps_frame hr.good r1).1
    cases ls with
    | nil =>
      cases e2
      simp only [List.getLast?_singleton, Option.some.injEq] at hl
      subst hl
      exact ⟨q, hq⟩
    | cons l' ls =>
      exact ih (hr.run r1) (fun l hl => hc l (by simp [hl])) (fun p hm => (hp p (by simp [hm])).trans_le hf.len) hq.lt e2
        (by rw [List.getLast?_cons_cons] at hl; exact hl)

theorem loss_ways {h h' : Heap T} {r y l wr wy : Nat} (hr : Reachable h) (hrl : r < h.length) (h1 : Ways h r wr) (h2 : Ways h y wy)
    (e : (do let (h, diff) ← subT h r y
             let (h, dist) ← absT h diff
             sumT h dist) = .ok (h', l)) : (∃ ops, runOps h ops = .ok h') ∧ Ways h' l (5 + wr + wy) ∧ ∃ p, Path h' l r p := by
  simp only [R.bind_eq_ok, Prod.exists] at e
  obtain ⟨ha, d, e1, hb, a, e2, e3⟩ := e
  obtain ⟨o1, r1⟩ := runOps_one (op := .sub r y) rfl e1
  obtain ⟨o2, r2⟩ := runOps_one (op := .abs d) rfl e2
  obtain ⟨o3, r3⟩ := runOps_one (op := .sum a) rfl e3
  have ra := hr.run r1
  have rb := ra.run r2
  have w3 := sumT_ways rb.good e3 (absT_ways ra.good e2 (subT_ways hr.good e1 hrl h1 h2))
  refine ⟨⟨o1 ++ (o2 ++ o3), by rw [runOps_append, r1, R.bind_ok, runOps_append, r2, R.bind_ok, r3]⟩, ?_, ?_⟩
  · have hs : 1 + (1 + (3 + wr + wy)) = 5 + wr + wy := by omega
    exact hs ▸ w3
  · have f2 := (runOps_frame ra.good r2).1
    have f3 := (runOps_frame rb.good r3).1
    have p1 : Path ha d r [0] := by
      simp only [subT, R.bind_eq_ok, Prod.exists] at e1
      obtain ⟨h1', n, _, e2⟩ := e1
      obtain ⟨ln, rn, v, hl, hr, -, rfl, rfl⟩ := addT_inv e2
      exact .one (n := ⟨v, none, some ⟨[r, n], .add⟩⟩) (by simp) rfl rfl
    have p2 : Path hb a d [0] := by
      simp only [absT, R.bind_eq_ok, Heap.node_eq_ok, R.pure_eq_ok, Heap.alloc] at e2
      obtain ⟨n, hn, v, hv, e⟩ := e2
      cases e
      exact .one (n := ⟨v, none, some ⟨[d], .abs⟩⟩) (by simp) rfl rfl
    have p3 : Path h' l a [0] := by
      obtain ⟨n, v, hn, -, rfl, rfl⟩ := sumT_inv e3
      refine .one (n := ⟨v, some hb.length, some ⟨[a], .sum⟩⟩) ?_ rfl rfl
      simp
    exact Spec.Ancestor.path (((p1.frame f2).frame f3).ancestor.trans ((p2.frame f3).ancestor.trans p3.ancestor))

/-- the loss of a training step -/
theorem trainLoss_ways {cost : Activation T → Nat} {W : Nat → Nat} {mlp : Mlp T} {h h' : Heap T} {x y l wx wy : Nat} (hr : Reachable h)
    (hc : ∀ l ∈ mlp.layers, Extends l.activation (cost l.activation)) (hp : ∀ p ∈ mlp.params, p < h.length ∧ Ways h p (W p))
    (hx : x < h.length) (hy : y < h.length) (h1 : Ways h x wx) (h2 : Ways h y wy) (e : trainLoss mlp h x y = .ok (h', l)) :
    (∃ ops, runOps h ops = .ok h') ∧
      Ways h' l (5 + (wx + (mlp.layers.map fun l => 4 + cost l.activation).sum + (mlp.params.map W).sum) + wy) ∧
      ∀ last, mlp.layers.getLast? = some last → ∃ p, Path h' l last.bias p := by
  simp only [trainLoss] at e
  rw [R.bind_eq_ok] at e
  obtain ⟨⟨ha, r⟩, e1, e2⟩ := e
  obtain ⟨⟨o1, r1⟩, hrl, w1⟩ := forward_ways mlp.layers hr hc hp hx h1 e1
  have hf := (runOps_frame hr.good r1).1
  obtain ⟨⟨o2, r2⟩, w2, q, hq⟩ := loss_ways (hr.run r1) hrl w1 (h2.frame hr.good hf hy) e2
  refine ⟨⟨o1 ++ o2, by rw [runOps_append, r1, R.bind_ok, r2]⟩, w2, fun last hl => ?_⟩
  obtain ⟨p, hp⟩ := forward_path mlp.layers hr (fun l hl => ⟨_, hc l hl⟩) (fun p h => (hp p h).1) hx e1 hl
  exact Spec.Ancestor.path ((hp.frame (runOps_frame (hr.run r1).good r2).1).ancestor.trans hq.ancestor)

/-! ### steps -/

theorem sgdParam_ways {h h' : Heap T} {s p q w : Nat} (hg : h.Good) (e : sgdParam h s p = .ok (h', q)) (hw : Ways h p w) :
    q < h'.length ∧ Ways h' q (w + 3) := by
  have hf : Frame h h' := by
    obtain ⟨ops, e⟩ := sgdParam_runOps e
    exact (runOps_frame hg e).1
  obtain ⟨pn, gn, sn, g, delta, neg, val, hp, -, -, -, -, -, -, rfl, rfl⟩ := sgdParam_inv e
  refine ⟨by simp, ?_⟩
  have w0 : Ways (h ++ [leafNode delta, ⟨neg, none, some ⟨[h.length], .neg⟩⟩, ⟨val, none, some ⟨[p, h.length + 1], .add⟩⟩]) h.length 0 :=
    ways_leaf (n := leafNode delta) (by simp) rfl
  have w1 := ways_one (l := h.length + 1) (n := ⟨neg, none, some ⟨[h.length], .neg⟩⟩) (by simp) rfl w0
  have w2 := ways_two (l := h.length + 2) (n := ⟨val, none, some ⟨[p, h.length + 1], .add⟩⟩) (by simp) rfl
    (hw.frame hg hf (getElem?_lt hp)) w1
  have hs : 2 + w + (1 + 0) = w + 3 := by omega
  exact hs ▸ w2

theorem sgdParams_ways {s : Nat} : ∀ {ps : List Nat} {h h' : Heap T} {qs : List Nat}, Reachable h → (∀ p ∈ ps, p < h.length) →
    sgdParams h s ps = .ok (h', qs) → List.Forall₂ (fun p q => q < h'.length ∧ ∀ w, Ways h p w → Ways h' q (w + 3)) ps qs := by
  intro ps
  induction ps with
  | nil => intro h h' qs _ _ e; cases e; exact .nil
  | cons p ps ih =>
    intro h h' qs hr hp e
    rw [sgdParams_cons, R.bind_eq_ok] at e
    obtain ⟨⟨h1, q⟩, e1, e⟩ := e
    simp only [R.bind_eq_ok] at e
    obtain ⟨⟨h2, qs'⟩, e2, e3⟩ := e
    rw [R.pure_eq_ok] at e3
    cases e3
    obtain ⟨o1, r1⟩ := sgdParam_runOps e1
    obtain ⟨o2, r2⟩ := sgdParams_runOps e2
    have rr := hr.run r1
    have f1 := (runOps_frame hr.good r1).1
    have f2 := (runOps_frame rr.good r2).1
    refine .cons ?_ ?_
    · obtain ⟨w, hw⟩ := ways_exists hr.good (hp p (by simp))
      refine ⟨(sgdParam_ways hr.good e1 hw).1.trans_le f2.len, fun w hw => ?_⟩
      obtain ⟨h4, h5⟩ := sgdParam_ways hr.good e1 hw
      exact h5.frame rr.good f2 h4
    · have hps : ∀ p ∈ ps, p < h.length := fun p hm => hp p (by simp [hm])
      have := ih rr (fun p hm => (hps p hm).trans_le f1.len) e2
      have key : ∀ (ps qs : List Nat), (∀ p ∈ ps, p < h.length) →
          List.Forall₂ (fun p q => q < h2.length ∧ ∀ w, Ways h1 p w → Ways h2 q (w + 3)) ps qs →
          List.Forall₂ (fun p q => q < h2.length ∧ ∀ w, Ways h p w → Ways h2 q (w + 3)) ps qs := by
        intro ps qs hps hh
        induction hh with
        | nil => exact .nil
        | cons ha _ ihh =>
          exact .cons ⟨ha.1, fun w hw => ha.2 w (hw.frame hr.good f1 (hps _ (by simp)))⟩ (ihh fun p hm => hps p (by simp [hm]))
      exact key _ _ hps this

theorem sgdStep_acts {mlp mlp' : Mlp T} {h h' : Heap T} {s : Nat} (e : mlp.sgdStep h s = .ok (h', mlp')) :
    mlp'.layers.map (·.activation) = mlp.layers.map (·.activation) := by
  simp only [Mlp.sgdStep, R.bind_eq_ok] at e
  obtain ⟨⟨h1, qs⟩, e1, mlp1, e2, e3⟩ := e
  rw [R.pure_eq_ok] at e3
  cases e3
  have hl : qs.length = 2 * mlp.layers.length := by
    rw [← (sgdParams_inv e1).2.length_eq]
    obtain ⟨ls⟩ := mlp
    clear e1 e2
    induction ls with
    | nil => rfl
    | cons l ls ih => rw [(C46_params _ _).2]; simp [ih]; omega
  obtain ⟨m, h1, -, h2⟩ := C46_update mlp qs hl
  rw [h1] at e2
  cases e2
  exact h2

theorem trains_ways {n : Nat} {h h' : Heap T} {mlp mlp' : Mlp T} (hr : Reachable h) (hp : ∀ p ∈ mlp.params, p < h.length)
    (ht : Trains n h mlp h' mlp') : mlp'.layers.map (·.activation) = mlp.layers.map (·.activation) ∧
      List.Forall₂ (fun p q => q < h'.length ∧ ∀ w, Ways h p w → Ways h' q (w + 3 * n)) mlp.params mlp'.params := by
  induction ht with
  | start => exact ⟨rfl, List.forall₂_same.2 fun x hx => ⟨hp x hx, fun w hw => hw⟩⟩
  | @step n h h1 h2 h3 mlp mlp1 mlp3 s ops t1 e1 e2 ih =>
    obtain ⟨ha, hh⟩ := ih hr hp
    refine ⟨(sgdStep_acts e2).trans ha, ?_⟩
    obtain ⟨r1, _⟩ := t1.reachable hr
    have r2 := r1.run e1
    have hf1 := (runOps_frame r1.good e1).1
    have key : ∀ (ps qs rs : List Nat), List.Forall₂ (fun p q => q < h1.length ∧ ∀ w, Ways h p w → Ways h1 q (w + 3 * n)) ps qs →
        List.Forall₂ (fun p q => q < h3.length ∧ ∀ w, Ways h2 p w → Ways h3 q (w + 3)) qs rs →
        List.Forall₂ (fun p q => q < h3.length ∧ ∀ w, Ways h p w → Ways h3 q (w + 3 * (n + 1))) ps rs := by
      intro ps
      induction ps with
      | nil => intro qs rs a b; cases a; cases b; exact .nil
      | cons p ps ihp =>
        intro qs rs a b
        cases a with
        | cons a1 a2 =>
          cases b with
          | cons b1 b2 =>
            refine .cons ⟨b1.1, fun w hw => ?_⟩ (ihp _ _ a2 b2)
            exact b1.2 _ ((a1.2 w hw).frame r1.good hf1 a1.1)
    have hb : ∀ (ps qs : List Nat), List.Forall₂ (fun p q => q < h1.length ∧ ∀ w, Ways h p w → Ways h1 q (w + 3 * n)) ps qs →
        ∀ q ∈ qs, q < h2.length := by
      intro ps qs hh
      induction hh with
      | nil => simp
      | cons a _ ih2 =>
        intro q hq
        rcases List.mem_cons.1 hq with rfl | hq
        · exact a.1.trans_le hf1.len
        · exact ih2 q hq
    exact key _ _ _ hh (sgdParams_ways r2 (hb _ _ hh) (sgdStep_inv e2))

/-- what is known before the next step -/
theorem trains_later {h0 k h : Heap T} {mlp0 mlp : Mlp T} {m : Nat} {ops : List (Op T)} (hr : Reachable h0)
    (hp : ∀ p ∈ mlp0.params, p < h0.length) (ht : Trains m h0 mlp0 k mlp) (eo : runOps k ops = .ok h) :
    Reachable h ∧ Frame h0 h ∧ (∀ p ∈ mlp.params, p < h.length) ∧ mlp.layers.map (·.activation) = mlp0.layers.map (·.activation) ∧
      List.Forall₂ (fun p q => ∀ w, Ways h0 p w → Ways h q (w + 3 * m)) mlp0.params mlp.params := by
  obtain ⟨r1, f1⟩ := ht.reachable hr
  have f2 := (runOps_frame r1.good eo).1
  obtain ⟨ha, hw⟩ := trains_ways hr hp ht
  have hb : ∀ (ps qs : List Nat), List.Forall₂ (fun p q => q < k.length ∧ ∀ w, Ways h0 p w → Ways k q (w + 3 * m)) ps qs →
      (∀ q ∈ qs, q < h.length) ∧ List.Forall₂ (fun p q => ∀ w, Ways h0 p w → Ways h q (w + 3 * m)) ps qs := by
    intro ps qs hh
    induction hh with
    | nil => exact ⟨by simp, .nil⟩
    | cons a _ ih =>
      refine ⟨fun q hq => ?_, .cons (fun w hw => (a.2 w hw).frame r1.good f2 a.1) ih.2⟩
      rcases List.mem_cons.1 hq with rfl | hq
      · exact a.1.trans_le f2.len
      · exact ih.1 q hq
  obtain ⟨h3, h4⟩ := hb _ _ hw
  exact ⟨r1.run eo, f1.trans f2, h3, ha, h4⟩

theorem acts_of_map {mlp0 mlp : Mlp T} {P : Activation T → Prop} (ha : mlp.layers.map (·.activation) = mlp0.layers.map (·.activation))
    (hc : ∀ l ∈ mlp0.layers, P l.activation) : ∀ l ∈ mlp.layers, P l.activation := by
  intro l hl
  have : l.activation ∈ mlp0.layers.map (·.activation) := ha ▸ List.mem_map.2 ⟨l, hl, rfl⟩
  obtain ⟨l0, h1, h2⟩ := List.mem_map.1 this
  exact h2 ▸ hc l0 h1

open Classical in
/-- number of paths the activations add -/
noncomputable def actCost (f : Activation T) : Nat := if h : ∃ c, Extends f c then h.choose else 0

theorem actCost_spec {f : Activation T} (h : ∃ c, Extends f c) : Extends f (actCost f) := by
  rw [actCost, dif_pos h]
  exact h.choose_spec

open Classical in
/-- number of paths -/
noncomputable def wayCount (h : Heap T) (p : Nat) : Nat := if h : ∃ w, Ways h p w then h.choose else 0

theorem wayCount_spec {h : Heap T} (hr : Reachable h) {p : Nat} (hp : p < h.length) : Ways h p (wayCount h p) := by
  have := ways_exists hr.good hp
  rw [wayCount, dif_pos this]
  exact this.choose_spec

/-- a step of the training loop: such a step, then two gradients are removed -/
theorem trainStep_trains {h0 k h h' : Heap T} {mlp0 mlp mlp' : Mlp T} {x y : Nat} {lr : T} {m : Nat} {ops : List (Op T)} (hr : Reachable h0)
    (hc : ∀ l ∈ mlp0.layers, ∃ c, Extends l.activation c) (hp : ∀ p ∈ mlp0.params, p < h0.length) (hx : x < h0.length) (hy : y < h0.length)
    (ht : Trains m h0 mlp0 k mlp) (eo : runOps k ops = .ok h) (e : trainStep mlp h x y lr = .ok (h', mlp')) :
    ∃ k' ops', Trains (m + 1) h0 mlp0 k' mlp' ∧ runOps k' ops' = .ok h' := by
  obtain ⟨rh, hf, hp', ha, -⟩ := trains_later hr hp ht eo
  simp only [trainStep] at e
  rw [R.bind_eq_ok] at e
  obtain ⟨⟨h1, l⟩, e1, e⟩ := e
  simp only [R.bind_eq_ok, Prod.exists] at e
  obtain ⟨h2, e2, h3, mlp1, e3, h4, e4, h5, e5, e6⟩ := e
  rw [R.pure_eq_ok] at e6
  cases e6
  obtain ⟨⟨o1, r1⟩, -⟩ := trainLoss_ways rh (fun l hl => actCost_spec (acts_of_map (P := fun f => ∃ c, Extends f c) ha hc l hl)) (fun p hm => ⟨hp' p hm, wayCount_spec rh (hp' p hm)⟩)
    (hx.trans_le hf.len) (hy.trans_le hf.len) (wayCount_spec rh (hx.trans_le hf.len)) (wayCount_spec rh (hy.trans_le hf.len)) e1
  refine ⟨h3, [.zeroGrad y, .zeroGrad x], .step (ops := ops ++ (o1 ++ [.backward l, .scalar lr])) ht ?_ e3, ?_⟩
  · rw [runOps_append, eo, R.bind_ok, runOps_append, r1, R.bind_ok, runOps_cons]
    simp only [Op.run, e2, R.bind_ok]
    rw [runOps_cons]
    rfl
  · rw [runOps_cons]
    simp only [Op.run, e4, R.bind_ok]
    rw [runOps_cons]
    simp only [Op.run, e5, R.bind_ok]
    rfl

theorem train_trains {n : Nat} : ∀ {h0 k h h' : Heap T} {mlp0 mlp mlp' : Mlp T} {x y : Nat} {lr : T} {m : Nat} {ops : List (Op T)},
    Reachable h0 → (∀ l ∈ mlp0.layers, ∃ c, Extends l.activation c) → (∀ p ∈ mlp0.params, p < h0.length) → x < h0.length → y < h0.length →
    Trains m h0 mlp0 k mlp → runOps k ops = .ok h → train mlp h x y lr n = .ok (h', mlp') →
    ∃ k' ops', Trains (m + n) h0 mlp0 k' mlp' ∧ runOps k' ops' = .ok h' := by
  induction n with
  | zero =>
    intro h0 k h h' mlp0 mlp mlp' x y lr m ops _ _ _ _ _ ht eo e
    cases e
    exact ⟨k, ops, ht, eo⟩
  | succ n ih =>
    intro h0 k h h' mlp0 mlp mlp' x y lr m ops hr hc hp hx hy ht eo e
    simp only [train, R.bind_eq_ok, Prod.exists] at e
    obtain ⟨h1, mlp1, e1, e2⟩ := e
    obtain ⟨k1, o1, t1, r1⟩ := trainStep_trains hr hc hp hx hy ht eo e1
    have := ih hr hc hp hx hy t1 r1 e2
    rwa [Nat.add_assoc, Nat.add_comm 1] at this

/-- the two losses -/
theorem trains_loss {h0 k h h1 h2 : Heap T} {mlp0 mlp : Mlp T} {x y m l1 l2 w1 w2 : Nat} {ops : List (Op T)} (hr : Reachable h0)
    (hc : ∀ l ∈ mlp0.layers, ∃ c, Extends l.activation c) (hp : ∀ p ∈ mlp0.params, p < h0.length) (hx : x < h0.length) (hy : y < h0.length)
    (ht : Trains m h0 mlp0 k mlp) (eo : runOps k ops = .ok h) (e1 : trainLoss mlp0 h0 x y = .ok (h1, l1))
    (e2 : trainLoss mlp h x y = .ok (h2, l2)) (hw1 : Ways h1 l1 w1) (hw2 : Ways h2 l2 w2) : w2 = w1 + 3 * m * mlp0.params.length := by
  obtain ⟨rh, hf, hp', ha, hw⟩ := trains_later hr hp ht eo
  have wx := wayCount_spec hr hx
  have wy := wayCount_spec hr hy
  have a1 := (trainLoss_ways hr (fun l hl => actCost_spec (hc l hl)) (fun p hm => ⟨hp p hm, wayCount_spec hr (hp p hm)⟩) hx hy wx wy e1).2.1
  have a2 := (trainLoss_ways rh (fun l hl => actCost_spec (acts_of_map (P := fun f => ∃ c, Extends f c) ha hc l hl)) (fun p hm => ⟨hp' p hm, wayCount_spec rh (hp' p hm)⟩)
    (hx.trans_le hf.len) (hy.trans_le hf.len) (wx.frame hr.good hf hx) (wy.frame hr.good hf hy) e2).2.1
  have b1 := hw1.unique a1
  have b2 := hw2.unique a2
  have hs : ∀ ms : List (Linear T), (ms.map fun l => 4 + actCost l.activation) = (ms.map (·.activation)).map fun f => 4 + actCost f := by
    intro ms; simp
  rw [hs] at b1 b2
  rw [ha] at b2
  have key : ∀ (ps qs : List Nat), (∀ p ∈ ps, p < h0.length) → (∀ q ∈ qs, q < h.length) →
      List.Forall₂ (fun p q => ∀ w, Ways h0 p w → Ways h q (w + 3 * m)) ps qs →
      (qs.map (wayCount h)).sum = (ps.map (wayCount h0)).sum + 3 * m * ps.length := by
    intro ps qs h1 h2 hh
    induction hh with
    | nil => rfl
    | cons a _ ih =>
      have i1 := ih (fun p hm => h1 p (by simp [hm])) (fun p hm => h2 p (by simp [hm]))
      have i2 := (a _ (wayCount_spec hr (h1 _ (by simp)))).unique (wayCount_spec rh (h2 _ (by simp)))
      simp only [List.map_cons, List.sum_cons, List.length_cons, i1, ← i2, Nat.mul_add]
      omega
  have := key _ _ hp hp' hw
  omega

end RL
