import Verif.Model.Graph

/-!
# Model of `Display` of a tensor

`/repo/src/tensor/rc_tensor.rs` 136-140: `write!(f, "{:?}", self.0.array)`. The flags of the outer formatter (`{:#}`) are not passed on.
How an element is printed (`Debug` of the element type) is the parameter `text`.
-/

namespace RL

variable {T : Type}

/-- One step of `DebugList::entries` of the standard library: `", "` before every entry except the first. -/
def vecTextStep (text : T → List Char) (s : List Char × Bool) (x : T) : List Char × Bool :=
  ((if s.2 then s.1 ++ [',', ' '] else s.1) ++ text x, true)

/-- `{:?}` of a `Vec` (`f.debug_list().entries(..).finish()` of the standard library). -/
def vecText (text : T → List Char) (xs : List T) : List Char := (xs.foldl (vecTextStep text) (['['], false)).1 ++ [']']

/-- `{}` of an `RcTensor`: `/repo/src/tensor/rc_tensor.rs` 136-140. -/
def displayFmt (text : T → List Char) (h : Heap T) (t : Nat) : R (List Char) := do
  let n ← h.node t
  return vecText text n.val.array

end RL
