import Verif.Lemmas.Precision
import Verif.Lemmas.TrainOps

/-!
# Constants for the rounding errors of a whole program
-/

namespace RL

open Spec

theorem forall₂_mem {α β : Type _} {P Q : α → β → Prop} {l : List α} {l' : List β} (h : List.Forall₂ P l l')
    (hq : ∀ a ∈ l, ∀ b ∈ l', P a b → Q a b) : List.Forall₂ Q l l' := by
  induction h with
  | nil => exact .nil
  | cons h _ ih =>
    exact .cons (hq _ (by simp) _ (by simp) h) (ih fun a ha b hb => hq a (by simp [ha]) b (by simp [hb]))

theorem forall₂_exists {α β : Type _} {P : α → β → Prop} {l : List α} {l' : List β} (h : List.Forall₂ P l l') {a : α} (ha : a ∈ l) :
    ∃ b ∈ l', P a b := by
  induction h with
  | nil => simp at ha
  | @cons x y _ _ h _ ih =>
    rcases List.mem_cons.1 ha with rfl | ha
    · exact ⟨y, by simp, h⟩
    · obtain ⟨b, hb, hp⟩ := ih ha
      exact ⟨b, by simp [hb], hp⟩

theorem forall₂_exists' {α β : Type _} {P : α → β → Prop} {l : List α} {l' : List β} (h : List.Forall₂ P l l') {b : β} (hb : b ∈ l') :
    ∃ a ∈ l, P a b := by
  obtain ⟨a, ha, hp⟩ := forall₂_exists h.flip hb
  exact ⟨a, ha, hp⟩

theorem forall₂_through {α β γ : Type _} {P : α → β → Prop} {Q : β → γ → Prop} {X : α → γ → Prop} {l : List α} {l' : List β} {l'' : List γ}
    (h1 : List.Forall₂ P l l') (h2 : List.Forall₂ Q l' l'') (hx : ∀ a b c, a ∈ l → b ∈ l' → P a b → Q b c → X a c) : List.Forall₂ X l l'' := by
  induction h1 generalizing l'' with
  | nil => cases h2; exact .nil
  | cons h _ ih =>
    cases h2 with
    | cons k ks =>
      exact .cons (hx _ _ _ (by simp) (by simp) h k) (ih ks fun a b c ha hb => hx a b c (by simp [ha]) (by simp [hb]))

theorem opRel_any {T S : Type} {K : JvpKind → Prop} {rel : T → S → Prop} {o : Op T} {o' : Op S} (h : OpRel K rel o o') :
    OpRel (fun _ => True) (fun (_ : T) (_ : S) => True) o o' := by
  cases h
  case new s h => exact .new s (h.imp fun _ _ _ => trivial)
  case rawUnary x h => exact .rawUnary x fun _ _ _ => trivial
  all_goals constructor <;> trivial

theorem Reaches.sameGraph {T S : Type} [Zero T] [One T] [Add T] [Mul T] [Neg T] [Zero S] [One S] [Add S] [Mul S] [Neg S]
    [Sub T] [LT T] [DecidableLT T] [LE T] [DecidableLE T] [RealFn T] [Sub S] [LT S] [DecidableLT S] [LE S] [DecidableLE S] [RealFn S]
    {rel : T → S → Prop} {g : Heap T} {h : Heap S} (hl : Reaches rel [] [] g h) : SameGraph g h := by
  obtain ⟨o, o', ho, e, e'⟩ := hl
  have := runOps_rel any_arith any_functions (h := ([] : Heap T)) (h' := ([] : Heap S)) (K := fun _ => True) (rel := fun _ _ => True) .nil
    (ho.imp fun _ _ k => opRel_any k)
  rw [e, e'] at this
  exact this

theorem heapAll_any {T S : Type} {rel : T → S → Prop} {g : Heap T} {h : Heap S} (hh : HeapAll rel g h) : SameGraph g h :=
  hh.imp fun _ _ k => ⟨⟨k.1.1.imp fun _ _ _ => trivial, k.1.2⟩, k.2⟩

theorem SameOutcome.of_ok_right {α β : Type _} {P : α → β → Prop} {x : R α} {b : β} (h : SameOutcome P x (.ok b)) : ∃ a, x = .ok a ∧ P a b := by
  cases x with
  | error e => exact h.elim
  | ok a => exact ⟨a, rfl, h⟩

namespace Tracked

/-- The same operation, whose elements have the bound `B`. -/
def track (B : ℝ) : Op ℝ → Op Tracked
  | .new a s => .new (a.map (⟨·, B⟩)) s
  | .filler s v => .filler s ⟨v, B⟩
  | .scalar v => .scalar ⟨v, B⟩
  | .default => .default
  | .add l r => .add l r
  | .sub l r => .sub l r
  | .neg t => .neg t
  | .mul l r => .mul l r
  | .relu t => .relu t
  | .tanh t => .tanh t
  | .abs t => .abs t
  | .sum t => .sum t
  | .bmm l r => .bmm l r
  | .dot l r => .dot l r
  | .viewToTensor v => .viewToTensor v
  | .viewSum v => .viewSum v
  | .bmmView l v => .bmmView l v
  | .viewBmm v r => .viewBmm v r
  | .viewBmmView v w => .viewBmmView v w
  | .mulView l v => .mulView l v
  | .rawBin k l r => .rawBin k l r
  | .rawSub l r => .rawSub l r
  | .rawUnary _ x => .rawUnary id x
  | .leftMul s x => .leftMul ⟨s, B⟩ x
  | .rightMul x s => .rightMul x ⟨s, B⟩
  | .rawSum t => .rawSum t
  | .deepClone t => .deepClone t
  | .rawClone t => .rawClone t
  | .updateGrad t g => .updateGrad t g
  | .zeroGrad t => .zeroGrad t
  | .backward t => .backward t

theorem track_mid (B : ℝ) (o : Op ℝ) (ho : ∀ f x, o ≠ .rawUnary f x) : OpRel (fun _ => True) IsMid (track B o) o := by
  cases o
  case rawUnary f x => exact absurd rfl (ho f x)
  case new a s =>
    refine .new s ?_
    induction a with
    | nil => exact .nil
    | cons x a ih => exact .cons rfl (ih (by simp))
  all_goals constructor <;> first | trivial | rfl

variable {T : Type} [Zero T] [One T] [Add T] [Mul T] [Sub T] [Neg T] [LT T] [DecidableLT T] [LE T] [DecidableLE T] [RealFn T]

theorem track_holds (ρ : Numbers T) {t B : ℝ} (hB : 0 ≤ B) {o : Op T} {o' : Op ℝ} (ho' : ∀ f x, o' ≠ .rawUnary f x)
    (ho : OpRel (fun _ => True) (ρ.Near (B * t)) o o') : OpRel (fun _ => True) (Holds ρ t) o (track B o') := by
  have key : ∀ {a : T} {x : ℝ}, ρ.Near (B * t) a x → Holds ρ t a ⟨x, B⟩ := fun h => ⟨hB, fun _ => h⟩
  cases ho
  case rawUnary f g x h => exact absurd rfl (ho' _ x)
  case new a a' s h =>
    refine .new s ?_
    induction h with
    | nil => exact .nil
    | cons h _ ih => exact .cons (key h) (ih (by simp))
  all_goals constructor <;> first | trivial | exact key (by assumption)

theorem runOps_mid {B : ℝ} {ops : List (Op ℝ)} {r : Heap ℝ} (hu : ∀ o ∈ ops, ∀ f x, o ≠ .rawUnary f x) (hr : runOps [] ops = .ok r) :
    ∃ b, runOps [] (ops.map (track B)) = .ok b ∧ HeapAll IsMid b r := by
  have ho : List.Forall₂ (OpRel (fun _ => True) IsMid) (ops.map (track B)) ops := by
    clear hr
    induction ops with
    | nil => exact .nil
    | cons o ops ih => exact .cons (track_mid B o (hu o (by simp))) (ih fun o ho => hu o (by simp [ho]))
  have h1 := runOps_rel mid_arith mid_functions (h := ([] : Heap Tracked)) (h' := ([] : Heap ℝ)) .nil ho
  rw [hr] at h1
  exact SameOutcome.of_ok_right h1

theorem runOps_leads (ρ : Numbers T) {t B : ℝ} (hB : 0 ≤ B) {ops : List (Op ℝ)} (hu : ∀ o ∈ ops, ∀ f x, o ≠ .rawUnary f x) {ops' : List (Op T)}
    (ho : List.Forall₂ (OpRel (fun _ => True) (ρ.Near (B * t))) ops' ops) {b : Heap Tracked} (hb : runOps [] (ops.map (track B)) = .ok b) :
    ∃ g, runOps [] ops' = .ok g ∧ Reaches (Holds ρ t) [] [] g b := by
  have ho : List.Forall₂ (OpRel (fun _ => True) (Holds ρ t)) ops' (ops.map (track B)) := by
    clear hb
    induction ho with
    | nil => exact .nil
    | cons h _ ih => exact .cons (track_holds ρ hB (hu _ (by simp)) h) (ih fun o ho => hu o (by simp [ho]))
  have h1 := runOps_rel any_arith any_functions (h := ([] : Heap T)) (h' := ([] : Heap Tracked)) (K := fun _ => True) (rel := fun _ _ => True) .nil
    (ho.imp fun _ _ k => opRel_any k)
  rw [hb] at h1
  obtain ⟨g, hg, -⟩ := SameOutcome.of_ok_right h1
  exact ⟨g, hg, _, _, ho, hg, hb⟩

/-- All elements. -/
def elems (b : Heap Tracked) : List Tracked := b.flatMap fun n => n.val.array

theorem mem_elems {b : Heap Tracked} {n : Node Tracked} (hn : n ∈ b) {x : Tracked} (hx : x ∈ n.val.array) : x ∈ elems b :=
  List.mem_flatMap.2 ⟨n, hn, hx⟩

theorem exists_bound (l : List Tracked) : ∃ C > (0 : ℝ), ∀ x ∈ l, x.rad ≤ C := by
  induction l with
  | nil => exact ⟨1, one_pos, by simp⟩
  | cons y l ih =>
    obtain ⟨C, h0, h1⟩ := ih
    refine ⟨max C y.rad, lt_max_of_lt_left h0, ?_⟩
    intro x hx
    rcases List.mem_cons.1 hx with rfl | hx
    · exact le_max_right _ _
    · exact (h1 x hx).trans (le_max_left _ _)

theorem exists_small (l : List Tracked) : ∃ δ > (0 : ℝ), ∀ x ∈ l, x.mid ≠ 0 → ∀ t, 0 ≤ t → t ≤ δ → x.rad * t < |x.mid| := by
  induction l with
  | nil => exact ⟨1, one_pos, by simp⟩
  | cons y l ih =>
    obtain ⟨δ, h0, h1⟩ := ih
    by_cases hy : y.mid = 0
    · refine ⟨δ, h0, ?_⟩
      intro x hx hm
      rcases List.mem_cons.1 hx with rfl | hx
      · exact absurd hy hm
      · exact h1 x hx hm
    · have hm : 0 < |y.mid| := abs_pos.2 hy
      have hd : 0 < |y.rad| + 1 := by positivity
      refine ⟨min δ (|y.mid| / 2 / (|y.rad| + 1)), lt_min h0 (by positivity), ?_⟩
      intro x hx hx0 t ht htd
      rcases List.mem_cons.1 hx with rfl | hx
      · have h2 : t * (|x.rad| + 1) ≤ |x.mid| / 2 := (le_div_iff₀ hd).1 (htd.trans (min_le_right _ _))
        have h3 : x.rad * t ≤ t * (|x.rad| + 1) := by
          have := mul_le_mul_of_nonneg_right (le_abs_self x.rad) ht
          nlinarith
        linarith
      · exact h1 x hx hx0 t ht (htd.trans (min_le_left _ _))

/-- One constant for the errors and one for how precise the arithmetic has to be, for all kinds of elements. -/
theorem exists_constants {b : Heap Tracked} {r : Heap ℝ} (hb : HeapAll IsMid b r) (hk : NoKinks r) : ∃ C > (0 : ℝ), ∃ δ > (0 : ℝ),
    ∀ (T : Type) [Zero T] [One T] [Add T] [Mul T] [Sub T] [Neg T] [LT T] [DecidableLT T] [LE T] [DecidableLE T] [RealFn T]
      (ρ : Numbers T) (t : ℝ), ρ.Precise t → t ≤ δ → ∀ h : Heap T, Reaches (Holds ρ t) [] [] h b → ρ.Finite h → HeapAll (ρ.Near (C * t)) h r := by
  obtain ⟨C, hC0, hC⟩ := exists_bound (elems b)
  obtain ⟨δ, hδ0, hδ⟩ := exists_small (elems b)
  refine ⟨C, hC0, min δ 1, lt_min hδ0 one_pos, ?_⟩
  intro T _ _ _ _ _ _ _ _ _ _ _ ρ t hp ht h hl hf
  have h0 : 0 ≤ t := ρ.u_nonneg.trans hp.1
  have h1 : t ≤ 1 := ht.trans (min_le_right _ _)
  obtain ⟨o, o', ho, e, e'⟩ := hl
  have hg := runOps_good e
  have hany : SameGraph h b := Reaches.sameGraph ⟨o, o', ho, e, e'⟩
  have hc : ClearIn (Sure ρ t) h b := by
    intro i m d hm hd p hpd
    obtain ⟨a, ha⟩ := List.getElem?_eq_some_iff.2 ⟨((hg i m hm).older d hd p hpd).trans (List.getElem?_eq_some_iff.1 hm).1, rfl⟩ |> fun x => (⟨_, x⟩ : ∃ a, h[p]? = some a)
    obtain ⟨a', ha', hab⟩ := forall₂_get hany ha
    obtain ⟨m', hm', hmm⟩ := forall₂_get hany hm
    obtain ⟨m'', hm'', hmm'⟩ := forall₂_get hb hm'
    obtain ⟨a'', ha'', hab'⟩ := forall₂_get hb ha'
    refine ⟨a, a', ha, ha', forall₂_mem hab.1.1 fun x hx y hy _ => ?_⟩
    have hfx : ρ.fin x := hf a (List.mem_of_getElem? ha) x hx
    have hd' : m''.gradFn = some d := by rw [← hmm'.2.2.1, ← hmm.2.2.1, hd]
    have hs : d.kind = .relu ∨ d.kind = .abs → y.rad * t < |y.mid| := by
      intro hkd
      obtain ⟨z, hz, hyz⟩ := forall₂_exists hab'.1.1 hy
      have hz0 : z ≠ 0 := hk i d p a''.val (by simp [historyOf, hm'', hd']) hkd hpd (by simp [dataOf, ha'']) z hz
      refine hδ y (mem_elems (List.mem_of_getElem? ha') hy) ?_ t h0 (ht.trans (min_le_left _ _))
      rw [show y.mid = z from hyz]
      exact hz0
    cases hkd : d.kind <;> simp only [Sure] <;> first | exact ⟨hfx, hs (by simp [hkd])⟩ | exact hfx
  have hh := runOps_if (holds_arith ρ h0 h1 hp) (holds_functions ρ h0 h1 hp) ho Heap.good_nil Heap.good_nil .nil e e' hc
  refine forall₂_through hh hb ?_
  intro n n' n'' hn hn' h1 h2
  refine ⟨⟨forall₂_through h1.1.1 h2.1.1 ?_, h1.1.2.trans h2.1.2⟩, h1.2.1.trans h2.2.1, h1.2.2.1.trans h2.2.2.1, fun _ _ => trivial⟩
  intro a x y ha hx hax hxy
  have h3 := hax.2 (hf n hn a ha)
  rw [show x.mid = y from hxy] at h3
  exact h3.trans (mul_le_mul_of_nonneg_right (hC x (mem_elems hn' hx)) h0)

end Tracked

/-- The network with the given layers, for two types of elements. -/
theorem sameNet_netOf {T S : Type} [Zero T] [One T] [Add T] [Mul T] [Neg T] [Zero S] [One S] [Add S] [Mul S] [Neg S]
    [Sub T] [LT T] [DecidableLT T] [LE T] [DecidableLE T] [RealFn T] [Sub S] [LT S] [DecidableLT S] [LE S] [DecidableLE S] [RealFn S]
    (ls : List (Nat × Nat × Act)) : SameNet (netOf (T := T) Act.run ls) (netOf (T := S) Act.run ls) := by
  unfold SameNet netOf
  induction ls with
  | nil => exact .nil
  | cons l ls ih =>
    obtain ⟨w, b, f⟩ := l
    refine .cons ⟨rfl, rfl, ?_⟩ ih
    cases f
    · exact .inl ⟨rfl, rfl⟩
    · exact .inr (.inl ⟨rfl, rfl⟩)
    · exact .inr (.inr ⟨rfl, rfl⟩)

end RL
