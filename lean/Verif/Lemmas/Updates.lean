import Verif.SpecGraph
import Verif.Lemmas.Ops3
import Mathlib.Data.List.Nodup

/-!
# The updates of a backward pass and the paths of the graph
-/

namespace RL

open Spec

variable {T : Type}

/-! ### properties of all successful results -/

/-- Every value a computation returns satisfies `P`. -/
def Post {α : Type _} (P : α → Prop) (x : R α) : Prop := ∀ a, x = .ok a → P a

theorem Post.pure {α : Type _} {P : α → Prop} {a : α} (h : P a) : Post P (Pure.pure a : R α) := by
  intro b hb; cases hb; exact h

theorem Post.bind {α β : Type _} {P : β → Prop} {x : R α} {f : α → R β} (h : ∀ a, x = .ok a → Post P (f a)) :
    Post P (x >>= f) := by
  intro b hb
  rw [R.bind_eq_ok] at hb
  obtain ⟨a, h1, h2⟩ := hb
  exact h a h1 b h2

theorem Post.error {α : Type _} {P : α → Prop} {e : Fail} : Post P (.error e : R α) := by intro b hb; cases hb

theorem Post.ite {α : Type _} {P : α → Prop} {c : Prop} [Decidable c] {x y : R α} (hx : c → Post P x) (hy : ¬c → Post P y) :
    Post P (if c then x else y) := by
  by_cases h : c <;> simp [h, hx, hy]

theorem Post.new (a : List T) (s : List Nat) : Post (fun t => t.shape = s ∧ WF t) (Raw.new a s) := by
  intro t ht
  obtain ⟨h1, rfl⟩ := Raw.new_ok_iff.1 ht
  exact ⟨rfl, h1⟩

/-! ### arity -/

theorem genericBinopJvp_length [Zero T] [Add T] [Mul T] (l r g : Raw T) (f : T → T → T) :
    Post (fun out => out.length = 2) (genericBinopJvp l r g f) := by
  have key : ∀ dim0 : R Nat, Post (fun out => out.length = 2) (do
      let dim0 ← dim0
      let array ← forIndices (maxShape l.shape r.shape) [] (fun acc idx => do
        let x ← unwrapR (l.get idx)
        let y ← unwrapR (r.get idx)
        return acc ++ [f x y])
      let diag ← Raw.new array [1, (maxShape l.shape r.shape).prod]
      let leftJvp ← jvpFromDiagonalBroadcast diag (some [dim0, l.array.length]) (maxShape l.shape r.shape) l.shape g
      let rightJvp ← jvpFromDiagonalBroadcast diag (some [dim0, r.array.length]) (maxShape l.shape r.shape) r.shape g
      return [leftJvp, rightJvp] : R (List (Raw T))) := fun dim0 =>
    Post.bind fun _ _ => Post.bind fun _ _ => Post.bind fun _ _ => Post.bind fun _ _ => Post.bind fun _ _ => Post.pure rfl
  unfold genericBinopJvp
  split
  · exact Post.bind fun _ _ => Post.bind fun _ _ => key _
  · exact key _

theorem genericUnaryJvp_length [Zero T] [Add T] [Mul T] (t g : Raw T) (f : T → T) :
    Post (fun out => out.length = 1) (genericUnaryJvp t g f) :=
  Post.bind fun _ _ => Post.bind fun _ _ => Post.bind fun _ _ => Post.bind fun _ _ => Post.pure rfl

variable [Zero T] [One T] [Add T] [Mul T] [Sub T] [Neg T] [LT T] [DecidableLT T] [LE T] [DecidableLE T] [RealFn T]

/-- how many inputs an operation has -/
def arity : JvpKind → Nat
  | .add | .bmm | .dot => 2
  | _ => 1

theorem fwd_arity {k : JvpKind} {vs : List (Raw T)} {v : Raw T} (h : fwd k vs = .ok v) : vs.length = arity k := by
  unfold fwd at h
  split at h <;> first | rfl | cases h

theorem applyJvp_length (k : JvpKind) (vs gs : List (Raw T)) : Post (fun out => out.length = arity k) (applyJvp k vs gs) := by
  cases k with
  | add =>
    exact Post.bind fun _ _ => Post.bind fun _ _ => Post.bind fun _ _ => Post.bind fun _ _ => Post.bind fun _ _ =>
      genericBinopJvp_length _ _ _ _
  | neg => exact Post.bind fun _ _ => Post.bind fun _ _ => genericUnaryJvp_length _ _ _
  | relu =>
    exact Post.bind fun _ _ => Post.bind fun _ _ => Post.bind fun _ _ => Post.bind fun _ _ => genericUnaryJvp_length _ _ _
  | abs =>
    exact Post.bind fun _ _ => Post.bind fun _ _ => Post.bind fun _ _ => Post.bind fun _ _ => Post.bind fun _ _ =>
      genericUnaryJvp_length _ _ _
  | tanh =>
    exact Post.bind fun _ _ => Post.bind fun _ _ => Post.bind fun _ _ => Post.bind fun _ _ => Post.bind fun _ _ =>
      Post.bind fun _ _ => Post.pure rfl
  | sum => exact Post.bind fun _ _ => Post.bind fun _ _ => Post.bind fun _ _ => Post.bind fun _ _ => Post.pure rfl
  | bmm =>
    exact Post.bind fun _ _ => Post.bind fun _ _ => Post.bind fun _ _ => Post.bind fun _ _ => Post.bind fun _ _ =>
      Post.bind fun _ _ => Post.bind fun _ _ => Post.bind fun _ _ => Post.bind fun _ _ => Post.pure rfl
  | dot =>
    exact Post.bind fun _ _ => Post.bind fun _ _ => Post.bind fun _ _ => Post.bind fun _ _ => Post.bind fun _ _ =>
      Post.bind fun _ _ => Post.pure rfl

/-! ### paths -/

/-- All paths from a tensor with this history, with their ends. -/
def pathsOf : Nat → Heap T → Deriv → List (Nat × List Nat)
  | 0, _, _ => []
  | fuel + 1, h, d => d.inputs.zipIdx.flatMap fun (i, k) =>
      (i, [k]) :: (match h[i]?.bind (·.gradFn) with
        | some d' => (pathsOf fuel h d').map fun (t, p) => (t, k :: p)
        | none => [])

theorem mem_pathsOf {h : Heap T} : ∀ {fuel : Nat} {l : Nat} {n : Node T} {d : Deriv}, h.Good → h[l]? = some n →
    n.gradFn = some d → l ≤ fuel → ∀ {t : Nat} {p : List Nat}, (t, p) ∈ pathsOf fuel h d ↔ Path h l t p := by
  intro fuel
  induction fuel with
  | zero =>
    intro l n d hg hn hd hl t p
    have hne : d.inputs = [] := by
      cases hi : d.inputs with
      | nil => rfl
      | cons a as => have := (hg l n hn).older d hd a (by simp [hi]); omega
    simp only [pathsOf, List.not_mem_nil, false_iff]
    intro hp
    cases hp with
    | one h1 h2 h3 => rw [hn] at h1; cases h1; rw [hd] at h2; cases h2; simp [hne] at h3
    | cons h1 h2 h3 h4 => rw [hn] at h1; cases h1; rw [hd] at h2; cases h2; simp [hne] at h3
  | succ fuel ih =>
    intro l n d hg hn hd hl t p
    simp only [pathsOf, List.mem_flatMap, Prod.exists, List.mem_zipIdx_iff_getElem?, List.mem_cons, Prod.mk.injEq]
    constructor
    · rintro ⟨i, k, hik, ⟨rfl, rfl⟩ | hr⟩
      · exact Path.one hn hd hik
      · cases hb : h[i]?.bind (·.gradFn) with
        | none => rw [hb] at hr; simp at hr
        | some d' =>
          rw [hb] at hr
          simp only [List.mem_map, Prod.exists, Prod.mk.injEq] at hr
          obtain ⟨t', q, hq, rfl, rfl⟩ := hr
          obtain ⟨m, hm, hm'⟩ := Option.bind_eq_some_iff.1 hb
          have := (hg l n hn).older d hd i (List.mem_of_getElem? hik)
          exact Path.cons hn hd hik ((ih hg hm hm' (by omega)).1 hq)
    · intro hp
      cases hp with
      | @one l t k n' d' h1 h2 h3 =>
        rw [hn] at h1; cases h1; rw [hd] at h2; cases h2
        exact ⟨t, k, h3, .inl ⟨rfl, rfl⟩⟩
      | @cons l i t k q n' d' h1 h2 h3 h4 =>
        rw [hn] at h1; cases h1; rw [hd] at h2; cases h2
        refine ⟨i, k, h3, .inr ?_⟩
        obtain ⟨m, d', hm, hm'⟩ : ∃ m d', h[i]? = some m ∧ m.gradFn = some d' := by
          cases h4 with
          | one a b c => exact ⟨_, _, a, b⟩
          | cons a b c _ => exact ⟨_, _, a, b⟩
        have hb : h[i]?.bind (·.gradFn) = some d' := by rw [hm]; exact hm'
        rw [hb]
        have := (hg l n hn).older d hd i (List.mem_of_getElem? h3)
        exact List.mem_map.2 ⟨(t, q), (ih hg hm hm' (by omega)).2 h4, rfl⟩

theorem pathsOf_nodup {h : Heap T} : ∀ (fuel : Nat) (d : Deriv), (pathsOf fuel h d).Nodup ∧ ∀ x ∈ pathsOf fuel h d, x.2 ≠ [] := by
  intro fuel
  induction fuel with
  | zero => intro d; simp [pathsOf]
  | succ fuel ih =>
    intro d
    constructor
    · unfold pathsOf
      refine List.nodup_flatMap.2 ⟨?_, ?_⟩
      · rintro ⟨i, k⟩ _
        refine List.nodup_cons.2 ⟨?_, ?_⟩
        · cases hb : h[i]?.bind (·.gradFn) with
          | none => simp
          | some d' =>
            simp only [List.mem_map, Prod.exists, Prod.mk.injEq, List.cons.injEq, true_and, not_exists, not_and]
            intro t q hq _ hq'
            exact (ih d').2 _ hq hq'
        · cases hb : h[i]?.bind (·.gradFn) with
          | none => simp
          | some d' =>
            refine ((ih d').1).map ?_
            rintro ⟨a, b⟩ ⟨c, e⟩ hh
            simpa using hh
      · have hp : (d.inputs.zipIdx).Pairwise (fun a b => a.2 ≠ b.2) := by
          rw [← List.pairwise_map (f := Prod.snd), List.zipIdx_map_snd]
          exact List.nodup_range'
        refine hp.imp ?_
        rintro ⟨i, k⟩ ⟨j, m⟩ hkm
        have hhead : ∀ (i k : Nat) (x : Nat × List Nat), x ∈ ((i, [k]) :: (match h[i]?.bind (·.gradFn) with
            | some d' => (pathsOf fuel h d').map fun (t, p) => (t, k :: p)
            | none => [])) → x.2.head? = some k := by
          intro i k x hx
          rcases List.mem_cons.1 hx with rfl | hx
          · rfl
          · cases hb : h[i]?.bind (·.gradFn) with
            | none => rw [hb] at hx; simp at hx
            | some d' =>
              rw [hb] at hx
              obtain ⟨y, _, rfl⟩ := List.mem_map.1 hx
              rfl
        intro x hx hy
        have h1 := hhead i k x hx
        have h2 := hhead j m x hy
        rw [h1] at h2
        exact hkm (by simpa using h2)
    · intro x hx
      simp only [pathsOf, List.mem_flatMap, Prod.exists, List.mem_cons] at hx
      obtain ⟨i, k, _, rfl | hx⟩ := hx
      · simp
      · cases hb : h[i]?.bind (·.gradFn) with
        | none => rw [hb] at hx; simp at hx
        | some d' =>
          rw [hb] at hx
          obtain ⟨y, _, rfl⟩ := List.mem_map.1 hx
          simp

/-! ### updates follow the paths -/

theorem jvpUpdates_paths {h : Heap T} (hg : h.Good) : ∀ {fuel : Nat} {l : Nat} {n : Node T} {d : Deriv} {gs : List (Raw T)}
    {us : List (Nat × Raw T)}, h[l]? = some n → n.gradFn = some d → jvpUpdates fuel h d gs = .ok us →
    us.map Prod.fst = (pathsOf fuel h d).map Prod.fst := by
  intro fuel
  induction fuel with
  | zero => intro l n d gs us _ _ e; cases e
  | succ fuel ih =>
    intro l n d gs us hn hd e
    obtain ⟨vs, hvs, hfw⟩ := (hg l n hn).explained d hd
    unfold jvpUpdates at e
    rw [hvs, R.bind_ok, R.bind_eq_ok] at e
    obtain ⟨sg, hsg, e⟩ := e
    rw [R.bind_eq_ok] at e
    obtain ⟨uss, e1, e2⟩ := e
    rw [R.pure_eq_ok] at e2
    subst e2
    have hlen : sg.length = d.inputs.length := by
      rw [applyJvp_length _ _ _ sg hsg, ← fwd_arity hfw]
      have := Heap.vals_eq_ok.1 hvs
      exact this.length_eq.symm
    have hold := (hg l n hn).older d hd
    have hll := getElem?_lt hn
    have key : ∀ (k0 : Nat) (inputs : List Nat) (sg : List (Raw T)) (uss : List (List (Nat × Raw T))),
        (∀ i ∈ inputs, i < h.length) → sg.length = inputs.length →
        (sg.zip inputs).mapM (fun (grad, input) => do
          let n ← h.node input
          assertR (grad.array.length == n.val.array.length)
          let shapedGrad ← Raw.new grad.array n.val.shape
          let rest ← match n.gradFn with
            | some d' => jvpUpdates fuel h d' [grad]
            | none => pure []
          return (input, shapedGrad) :: rest) = .ok uss →
        uss.flatten.map Prod.fst = ((inputs.zipIdx k0).flatMap fun (i, k) =>
          (i, [k]) :: (match h[i]?.bind (·.gradFn) with
            | some d' => (pathsOf fuel h d').map fun (t, p) => (t, k :: p)
            | none => [])).map Prod.fst := by
      intro k0 inputs
      induction inputs generalizing k0 with
      | nil =>
        intro sg uss _ hl e
        rw [List.zip_nil_right] at e
        cases e
        rfl
      | cons i inputs ihi =>
        intro sg uss hin hl e
        cases sg with
        | nil => simp at hl
        | cons g sg =>
          rw [List.zip_cons_cons, List.mapM_cons, R.bind_eq_ok] at e
          obtain ⟨u, e1, e⟩ := e
          rw [R.bind_eq_ok] at e
          obtain ⟨uss', e2, e3⟩ := e
          rw [R.pure_eq_ok] at e3
          subst e3
          have := ihi (k0 + 1) sg uss' (fun j hj => hin j (by simp [hj])) (by simpa using hl) e2
          rw [List.zipIdx_cons, List.flatMap_cons, List.flatten_cons, List.map_append, List.map_append, this]
          congr 1
          simp only [R.bind_eq_ok, Heap.node_eq_ok] at e1
          obtain ⟨m, hm, _, _, sgr, _, e1⟩ := e1
          cases hgf : m.gradFn with
          | none =>
            rw [hgf] at e1
            have hb : h[i]?.bind (·.gradFn) = none := by rw [hm]; exact hgf
            simp only [R.bind_eq_ok, R.pure_eq_ok] at e1
            obtain ⟨_, rfl, rfl⟩ := e1
            simp [hb]
          | some d' =>
            rw [hgf] at e1
            have hb : h[i]?.bind (·.gradFn) = some d' := by rw [hm]; exact hgf
            simp only [R.bind_eq_ok, R.pure_eq_ok] at e1
            obtain ⟨rest, hr, rfl⟩ := e1
            have := ih hm hgf hr
            simp only [List.map_cons, hb, this, List.map_map]
            rfl
    exact key 0 d.inputs sg uss (fun i hi => (hold i hi).trans hll) hlen e1

theorem forall₂_mem_right {α β : Type _} {P : α → β → Prop} {l : List α} {bs : List β} (h : List.Forall₂ P l bs) {b : β}
    (hb : b ∈ bs) : ∃ a ∈ l, P a b := by
  induction h with
  | nil => simp at hb
  | cons h1 _ ih =>
    rcases List.mem_cons.1 hb with rfl | hb
    · exact ⟨_, by simp, h1⟩
    · obtain ⟨a, ha, hab⟩ := ih hb
      exact ⟨a, by simp [ha], hab⟩

/-- Contributions have the shape of the tensor they go to. -/
theorem jvpUpdates_shape {h : Heap T} : ∀ {fuel : Nat} {d : Deriv} {gs : List (Raw T)}
    {us : List (Nat × Raw T)}, jvpUpdates fuel h d gs = .ok us → ∀ u ∈ us, ∃ n, h[u.1]? = some n ∧ u.2.shape = n.val.shape ∧ WF u.2 := by
  intro fuel
  induction fuel with
  | zero => intro d gs us e; cases e
  | succ fuel ih =>
    intro d gs us e u hu
    unfold jvpUpdates at e
    rw [R.bind_eq_ok] at e
    obtain ⟨vs, _, e⟩ := e
    rw [R.bind_eq_ok] at e
    obtain ⟨sg, _, e⟩ := e
    rw [R.bind_eq_ok] at e
    obtain ⟨uss, e1, e2⟩ := e
    rw [R.pure_eq_ok] at e2
    subst e2
    obtain ⟨l, hl, hul⟩ := List.mem_flatten.1 hu
    obtain ⟨⟨grad, input⟩, _, e3⟩ := forall₂_mem_right (mapM_ok_iff.1 e1) hl
    simp only [R.bind_eq_ok, Heap.node_eq_ok] at e3
    obtain ⟨m, hm, _, _, sgr, hS, e3⟩ := e3
    obtain ⟨hw, rfl⟩ := Raw.new_ok_iff.1 hS
    have : u = (input, ⟨grad.array, m.val.shape⟩) ∨ ∃ d' rest, m.gradFn = some d' ∧ jvpUpdates fuel h d' [grad] = .ok rest ∧
        u ∈ rest := by
      cases hgf : m.gradFn with
      | none =>
        rw [hgf] at e3
        simp only [R.bind_eq_ok, R.pure_eq_ok] at e3
        obtain ⟨_, rfl, rfl⟩ := e3
        exact .inl (by simpa using hul)
      | some d' =>
        rw [hgf] at e3
        simp only [R.bind_eq_ok, R.pure_eq_ok] at e3
        obtain ⟨rest, hr, rfl⟩ := e3
        rcases List.mem_cons.1 hul with h1 | h1
        · exact .inl h1
        · exact .inr ⟨d', rest, rfl, hr, h1⟩
    rcases this with rfl | ⟨d', rest, _, hr, hm'⟩
    · exact ⟨m, hm, rfl, hw⟩
    · exact ih hr u hm'

/-! ### what the updates do to the gradients -/

/-- Add one contribution to a gradient. -/
def gradAccumStep : Option (Raw T) → Raw T → R (Option (Raw T))
  | none, c => pure (some c)
  | some p, c => do return some (← addRaw (.raw p) (.raw c))

/-- Add contributions one after the other to a gradient. -/
def gradAccum (g : Option (Raw T)) (cs : List (Raw T)) : R (Option (Raw T)) := cs.foldlM gradAccumStep g

theorem gradAccum_cons (g : Option (Raw T)) (c : Raw T) (cs : List (Raw T)) :
    gradAccum g (c :: cs) = gradAccumStep g c >>= fun g => gradAccum g cs := by
  simp [gradAccum]

theorem gradAccum_append (g : Option (Raw T)) (cs ds : List (Raw T)) :
    gradAccum g (cs ++ ds) = gradAccum g cs >>= fun g => gradAccum g ds := by
  simp [gradAccum]

theorem gradOf_none {h : Heap T} {t : Nat} {n : Node T} (hn : h[t]? = some n) (hg : n.grad = none) : gradOf h t = none := by
  simp [gradOf, hn, hg]

theorem gradOf_some {h : Heap T} {t g : Nat} {n gn : Node T} (hn : h[t]? = some n) (hg : n.grad = some g)
    (hgn : h[g]? = some gn) : gradOf h t = some gn.val := by
  simp [gradOf, hn, hg, hgn]

/-- A tensor whose node did not change has the same gradient. -/
theorem gradOf_congr {h h' : Heap T} (hg : h.Good) (hf : Frame h h') {t : Nat} {n : Node T} (hn : h[t]? = some n)
    (hn' : h'[t]? = some n) : gradOf h' t = gradOf h t := by
  cases hgr : n.grad with
  | none => rw [gradOf_none hn hgr, gradOf_none hn' hgr]
  | some g =>
    have hlt := (hg t n hn).grad g hgr
    obtain ⟨g', hg'⟩ := hf.get (List.getElem?_eq_getElem hlt)
    rw [gradOf_some hn hgr (List.getElem?_eq_getElem hlt), gradOf_some hn' hgr hg']

theorem applyUpdate_other {h h' : Heap T} {u : Nat × Raw T} {t : Nat} (e : applyUpdate h u = .ok h') (hne : u.1 ≠ t)
    (ht : t < h.length) : h'[t]? = h[t]? := by
  have ht' : (h ++ [leafNode u.2])[t]? = h[t]? := List.getElem?_append_left ht
  obtain ⟨n, hn, ⟨_, rfl⟩ | ⟨o, on, gn, v, _, ho, hg, hv, rfl⟩⟩ := updateGrad_inv e
  · rw [List.getElem?_set_ne hne]; exact ht'
  · rw [List.getElem?_set_ne hne, List.getElem?_append_left (by simp [Heap.leaf, Heap.alloc]; omega)]
    exact ht'

theorem applyUpdate_self {h h' : Heap T} {t : Nat} {c : Raw T} (hg : h.Good) (e : applyUpdate h (t, c) = .ok h')
    (ht : t < h.length) : (gradOf h t = none ∧ gradOf h' t = some c) ∨
      ∃ p v, gradOf h t = some p ∧ addRaw (.raw p) (.raw c) = .ok v ∧ gradOf h' t = some v := by
  have hcg : (h.leaf c).1[h.length]? = some (leafNode c) := by simp [Heap.leaf, Heap.alloc]
  have hold : ∀ {i : Nat} {m : Node T}, h[i]? = some m → (h.leaf c).1[i]? = some m := by
    intro i m hm
    simp [Heap.leaf, Heap.alloc, List.getElem?_append_left (getElem?_lt hm), hm]
  have hlen : (h.leaf c).1.length = h.length + 1 := by simp [Heap.leaf, Heap.alloc]
  obtain ⟨n, hn, ⟨hgr, rfl⟩ | ⟨o, on, gn, v, hgr, ho, hgn, hv, rfl⟩⟩ := updateGrad_inv e
  · left
    have hnt : h[t]? = some n := by rw [← hn, hold (List.getElem?_eq_getElem ht), List.getElem?_eq_getElem ht]
    refine ⟨gradOf_none hnt hgr, ?_⟩
    rw [gradOf_some (n := { n with grad := some h.length }) (List.getElem?_set_self (by simp [Heap.leaf, Heap.alloc]; omega)) rfl
      (by rw [List.getElem?_set_ne (by omega), hcg])]
    rfl
  · right
    have hnt : h[t]? = some n := by rw [← hn, hold (List.getElem?_eq_getElem ht), List.getElem?_eq_getElem ht]
    have hol := (hg t n hnt).grad o hgr
    have hon : h[o]? = some on := by rw [← ho, hold (List.getElem?_eq_getElem hol), List.getElem?_eq_getElem hol]
    have hgn' : gn = leafNode c := by
      have h1 : (h.leaf c).1[h.length]? = some gn := hgn
      rw [hcg] at h1
      exact (Option.some.inj h1).symm
    subst hgn'
    refine ⟨on.val, v, gradOf_some hnt hgr hon, hv, ?_⟩
    rw [gradOf_some (n := { n with grad := some (h.leaf c).1.length })
      (gn := ⟨v, none, some ⟨[o, h.length], .add⟩⟩) (List.getElem?_set_self (by simp [Heap.leaf, Heap.alloc]; omega)) rfl]
    rw [List.getElem?_set_ne (by omega)]
    simp

/-- the contributions to one tensor -/
def gradContribs (us : List (Nat × Raw T)) (t : Nat) : List (Raw T) := (us.filter (fun u => u.1 == t)).map Prod.snd

theorem applyUpdates_grad {us : List (Nat × Raw T)} {t : Nat} : ∀ {h h' : Heap T}, h.Good → t < h.length →
    applyUpdates h us = .ok h' → gradAccum (gradOf h t) (gradContribs us t) = .ok (gradOf h' t) := by
  induction us with
  | nil => intro h h' _ _ e; cases e; rfl
  | cons u us ih =>
    intro h h' hg ht e
    rw [applyUpdates_cons, R.bind_eq_ok] at e
    obtain ⟨h1, e1, e2⟩ := e
    have hf1 := applyUpdate_frame e1
    have := ih (applyUpdate_good e1 hg) (ht.trans_le hf1.len) e2
    obtain ⟨a, c⟩ := u
    by_cases hat : a = t
    · subst hat
      have hc : gradContribs ((a, c) :: us) a = c :: gradContribs us a := by simp [gradContribs]
      rw [hc, gradAccum_cons]
      rcases applyUpdate_self hg e1 ht with ⟨h2, h3⟩ | ⟨p, v, h2, h3, h4⟩
      · rw [h2]
        rw [h3] at this
        exact this
      · rw [h2]
        rw [h4] at this
        simp only [gradAccumStep, h3, R.bind_ok, R.pure_eq]
        exact this
    · have hc : gradContribs ((a, c) :: us) t = gradContribs us t := by simp [gradContribs, hat]
      rw [hc]
      have hn := List.getElem?_eq_getElem ht
      rw [gradOf_congr hg hf1 hn ((applyUpdate_other e1 hat ht).trans hn)] at this
      exact this

theorem applyUpdates_other {us : List (Nat × Raw T)} {t : Nat} (hus : ∀ u ∈ us, u.1 ≠ t) : ∀ {h h' : Heap T}, t < h.length →
    applyUpdates h us = .ok h' → h'[t]? = h[t]? := by
  induction us with
  | nil => intro h h' _ e; cases e; rfl
  | cons u us ih =>
    intro h h' ht e
    rw [applyUpdates_cons, R.bind_eq_ok] at e
    obtain ⟨h1, e1, e2⟩ := e
    rw [ih (fun v hv => hus v (by simp [hv])) (ht.trans_le (applyUpdate_frame e1).len) e2,
      applyUpdate_other e1 (hus u (by simp)) ht]

/-- Every update allocates a tensor. -/
theorem applyUpdates_length {us : List (Nat × Raw T)} : ∀ {h h' : Heap T}, applyUpdates h us = .ok h' →
    h.length + us.length ≤ h'.length := by
  induction us with
  | nil => intro h h' e; cases e; simp
  | cons u us ih =>
    intro h h' e
    rw [applyUpdates_cons, R.bind_eq_ok] at e
    obtain ⟨h1, e1, e2⟩ := e
    have := ih e2
    have h2 : h.length + 1 ≤ h1.length := by
      have := (updateGrad_frame e1).len
      simpa [Heap.leaf, Heap.alloc] using this
    simp only [List.length_cons]
    omega

/-! ### ancestors and paths -/

theorem Spec.Path.ancestor {h : Heap T} {l t : Nat} {p : List Nat} (hp : Path h l t p) : Ancestor h t l := by
  induction hp with
  | one h1 h2 h3 => exact .single ⟨_, _, h1, h2, List.mem_of_getElem? h3⟩
  | cons h1 h2 h3 _ ih => exact ih.tail ⟨_, _, h1, h2, List.mem_of_getElem? h3⟩

theorem Spec.Ancestor.path {h : Heap T} {l t : Nat} (ha : Ancestor h t l) : ∃ p, Path h l t p := by
  induction ha with
  | single hi =>
    obtain ⟨n, d, h1, h2, h3⟩ := hi
    obtain ⟨k, hk⟩ := List.mem_iff_getElem?.1 h3
    exact ⟨[k], .one h1 h2 hk⟩
  | tail _ hi ih =>
    obtain ⟨n, d, h1, h2, h3⟩ := hi
    obtain ⟨k, hk⟩ := List.mem_iff_getElem?.1 h3
    obtain ⟨p, hp⟩ := ih
    exact ⟨k :: p, .cons h1 h2 hk hp⟩

/-- The updates of `backward` and the paths from the loss. -/
theorem backward_updates {h h' : Heap T} {l : Nat} (hg : h.Good) (e : backward h l = .ok h') :
    ∃ (us : List (Nat × Raw T)) (ps : List (Nat × List Nat)), applyUpdates h us = .ok h' ∧ us.map Prod.fst = ps.map Prod.fst ∧ ps.Nodup ∧
      ∀ t p, (t, p) ∈ ps ↔ Path h l t p := by
  obtain ⟨n, d, us, hn, _, hd, h1, h2⟩ := backward_inv hg e
  refine ⟨us, pathsOf (h.length + 1) h d, h2, jvpUpdates_paths hg hn hd h1, (pathsOf_nodup _ _).1, fun t p => ?_⟩
  have := getElem?_lt hn
  exact mem_pathsOf hg hn hd (by omega)

end RL
