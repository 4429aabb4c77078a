import Mathlib.Analysis.Normed.Group.Basic

/-!
Numerical inversion of a material law,
ikarus/finiteelements/mechanics/materials/numericalmaterialinversion.hh.

Voigt vectors form a normed group `V`. The material is given by its stresses (line 56) and by the inverse
of its tangent moduli (line 66), both as functions of the strain; matrices act on vectors.
-/

namespace Ikarus

variable {V : Type} [NormedAddCommGroup V]

/-- What the function needs to know about a material. -/
structure InvertibleMaterial (V : Type) where
  stress : V → V
  /-- `tangentModuli(E).inverse()` -/
  compliance : V → V → V

/-- ikarus/finiteelements/mechanics/materials/numericalmaterialinversion.hh:49-53. -/
structure InversionState (V : Type) where
  D : V → V
  Es : V

/-- Ways out of the loop of ikarus/finiteelements/mechanics/materials/numericalmaterialinversion.hh:55-68:
the condition of the `for` loop, `break`, or the exception of line 61. -/
inductive LoopExit (V : Type) where
  | done (s : InversionState V)
  | broke (s : InversionState V)
  | thrown

open Classical in
/-- ikarus/finiteelements/mechanics/materials/numericalmaterialinversion.hh:55-68, with the remaining
values of `i` in the list. -/
noncomputable def inversionLoop (m : InvertibleMaterial V) (S : V) (tol : ℝ) (maxIter : Nat) :
    List Nat → InversionState V → LoopExit V
  | [], s => .done s
  | i :: is, s =>
    let r := S - m.stress s.Es
    if ‖r‖ < tol ∧ 0 < i then .broke s
    else if i = maxIter then .thrown
    else
      let D := m.compliance s.Es
      inversionLoop m S tol maxIter is { D := D, Es := s.Es + D r }

/-- ikarus/finiteelements/mechanics/materials/numericalmaterialinversion.hh:33-70, without the final
conversion of the strain; `none` is the exception. -/
noncomputable def numericalMaterialInversion (m : InvertibleMaterial V) (S Estart : V) (tol : ℝ)
    (maxIter : Nat) : Option ((V → V) × V) :=
  match inversionLoop m S tol maxIter (List.range maxIter) ⟨fun _ => 0, Estart⟩ with
  | .done s => some (s.D, s.Es)
  | .broke s => some (s.D, s.Es)
  | .thrown => none

end Ikarus
