import Mathlib.Algebra.BigOperators.Group.List.Basic

/-!
Specification vocabulary for the assemblers.  Nothing here refers to the model.
-/

namespace Ikarus.Spec

variable {α : Type*}

/-- The entries of `v` whose flag is `false`, in order. -/
def selectFree : List Bool → List α → List α
  | b :: bs, x :: xs => if b then selectFree bs xs else x :: selectFree bs xs
  | _, _ => []

/-- `v` with the entries whose flag is `true` replaced by zero. -/
def mask [Zero α] (flags : List Bool) (v : List α) : List α :=
  List.zipWith (fun b x => if b then 0 else x) flags v

/-- Number of free dofs with index below `i`. -/
def rank (flags : List Bool) (i : Nat) : Nat := (flags.take i).count false

/-- Number of constrained dofs with index below `i`. -/
def constrainedBelow (flags : List Bool) (i : Nat) : Nat := (flags.take i).count true

/-- `i` is a free dof. -/
def Free (flags : List Bool) (i : Nat) : Prop := flags[i]? = some false

instance (flags : List Bool) (i : Nat) : Decidable (Free flags i) := by
  unfold Free; infer_instance

end Ikarus.Spec
