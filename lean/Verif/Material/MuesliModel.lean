import Verif.Material.ConversionModel
import Verif.Material.NeoHookeModel

/-!
Model of the wrappers of the materials of the library Muesli, ikarus/finiteelements/mechanics/materials/muesli.

Muesli itself is not part of the code: a Muesli material is a set of functions of its properties, of the state its
material point was committed with and of the current deformation. `updateCurrentState` sets the current deformation,
`commitCurrentState` (which the wrappers never call) would replace the committed state.

The access to the material point (`materialPoint()`, mueslifinite.hh:144), with which a caller could commit, is not modelled.

Simplifications: real numbers; `msqrt` is the square root of matrices of Eigen as in `ConversionModel`; strains are
matrices (vectors in Voigt notation are converted first, materials/interface.hh:187-242).
-/

namespace Ikarus

open Matrix

namespace Muesli

noncomputable section

/-- `istensor` of Muesli, a symmetric tensor made from its entries 11, 22, 33, 23, 31, 12. -/
structure ISTensor where
  t11 : ℝ
  t22 : ℝ
  t33 : ℝ
  t23 : ℝ
  t31 : ℝ
  t12 : ℝ

/-- `operator()(i, j)` of `istensor`. -/
def ISTensor.get (t : ISTensor) (i j : Fin 3) : ℝ :=
  match i, j with
  | 0, 0 => t.t11
  | 1, 1 => t.t22
  | 2, 2 => t.t33
  | 1, 2 | 2, 1 => t.t23
  | 2, 0 | 0, 2 => t.t31
  | 0, 1 | 1, 0 => t.t12

/-- muesli/mueslihelpers.hh:57-59. -/
def toistensor (C : Matrix (Fin 3) (Fin 3) ℝ) : ISTensor := ⟨C 0 0, C 1 1, C 2 2, C 1 2, C 2 0, C 0 1⟩

/-- muesli/mueslihelpers.hh:66-68; `itensor` is made from its entries row by row. -/
def toitensor (C : Matrix (Fin 3) (Fin 3) ℝ) : Matrix (Fin 3) (Fin 3) ℝ :=
  !![C 0 0, C 0 1, C 0 2; C 1 0, C 1 1, C 1 2; C 2 0, C 2 1, C 2 2]

/-- muesli/mueslihelpers.hh:76-82. -/
def toEigenMatrix (t : ISTensor) : Matrix (Fin 3) (Fin 3) ℝ := Matrix.of fun i j => t.get i j

/-- muesli/mueslihelpers.hh:90-99. -/
def toEigenTensor (t : Tensor4 ℝ 3) : Tensor4 ℝ 3 := fun i j k l => t i j k l

/-- A Muesli material: what a material point with properties `Θ` and committed state `K` returns for the current
deformation, of type `D`. -/
structure Law (Θ K D : Type) where
  start : Θ → K
  energy : Θ → K → D → ℝ
  stress : Θ → K → D → ISTensor
  tangent : Θ → K → D → Tensor4 ℝ 3

/-- A wrapper (mueslifinite.hh:152-154, mueslismall.hh:160-162): the properties, the properties the Muesli material was made
with, and the state of the material point. -/
structure Obj (Θ K D : Type) where
  materialParameter : Θ
  material : Θ
  committed : K
  current : Option D

/-- What is asked of a material. -/
inductive Query
  | energy | stress | moduli

/-- The answers. -/
inductive Answer
  | energy (w : ℝ)
  | stress (S : Matrix (Fin 3) (Fin 3) ℝ)
  | moduli (A : Tensor4 ℝ 3)

variable {Θ K D : Type}

/-- The constructor, mueslifinite.hh:60-63, mueslismall.hh:69-72. -/
def construct (M : Law Θ K D) (mpt : Θ) : Obj Θ K D := ⟨mpt, mpt, M.start mpt, none⟩

/-- The copy constructor, mueslifinite.hh:146-149, mueslismall.hh:154-157: material and material point are made anew. -/
def copy (M : Law Θ K D) (other : Obj Θ K D) : Obj Θ K D :=
  ⟨other.materialParameter, other.materialParameter, M.start other.materialParameter, none⟩

/-- The functions of the material point after `updateCurrentState`; without a current deformation there is no answer. -/
def ask (M : Law Θ K D) (o : Obj Θ K D) : Query → Option Answer
  | .energy => o.current.map fun d => .energy (M.energy o.material o.committed d)
  | .stress => o.current.map fun d => .stress (toEigenMatrix (M.stress o.material o.committed d))
  | .moduli => o.current.map fun d => .moduli (toEigenTensor (M.tangent o.material o.committed d))

/-- `FiniteStrain::updateState`, mueslifinite.hh:156-161; `none` is `abort`. -/
def updateFinite (msqrt : Matrix (Fin 3) (Fin 3) ℝ → Matrix (Fin 3) (Fin 3) ℝ) (eps : ℝ)
    (o : Obj Θ K (Matrix (Fin 3) (Fin 3) ℝ)) (C : Matrix (Fin 3) (Fin 3) ℝ) :
    Option (Obj Θ K (Matrix (Fin 3) (Fin 3) ℝ)) := do
  checkPositiveOrAbort eps C.det
  let F ← transformStrain msqrt .rightCauchyGreenTensor .deformationGradient C
  return { o with current := some (toitensor F) }

/-- `storedEnergy<tag>`, `stresses<tag, false>`, `tangentModuli<tag, false>` of a finite strain material:
materials/interface.hh:187-242 and mueslifinite.hh:76-132. The object is changed, although the functions are `const`. -/
def evalFinite (M : Law Θ K (Matrix (Fin 3) (Fin 3) ℝ)) (msqrt : Matrix (Fin 3) (Fin 3) ℝ → Matrix (Fin 3) (Fin 3) ℝ)
    (eps : ℝ) (o : Obj Θ K (Matrix (Fin 3) (Fin 3) ℝ)) (q : Query) (tag : StrainTag) (E : Matrix (Fin 3) (Fin 3) ℝ) :
    Option (Obj Θ K (Matrix (Fin 3) (Fin 3) ℝ) × Answer) := do
  let C ← transformStrain msqrt tag .rightCauchyGreenTensor E
  let o ← updateFinite msqrt eps o C
  let a ← ask M o q
  return (o, a)

/-- The same of a small strain material, mueslismall.hh:85-140, 164-167. -/
def evalSmall (M : Law Θ K ISTensor) (msqrt : Matrix (Fin 3) (Fin 3) ℝ → Matrix (Fin 3) (Fin 3) ℝ)
    (o : Obj Θ K ISTensor) (q : Query) (tag : StrainTag) (E : Matrix (Fin 3) (Fin 3) ℝ) :
    Option (Obj Θ K ISTensor × Answer) := do
  let e ← transformStrain msqrt tag .linear E
  let o := { o with current := some (toistensor e) }
  let a ← ask M o q
  return (o, a)

/-- What a program does with materials, named by numbers. -/
inductive Op (Θ : Type)
  | make (i : Nat) (mpt : Θ)
  | copy (i j : Nat)
  | eval (i : Nat) (q : Query) (tag : StrainTag) (E : Matrix (Fin 3) (Fin 3) ℝ)

/-- A program with the evaluation `ev`; the answers in order. `none`: abort, or an object that does not exist. -/
def run (M : Law Θ K D) (ev : Obj Θ K D → Query → StrainTag → Matrix (Fin 3) (Fin 3) ℝ → Option (Obj Θ K D × Answer))
    (s : Nat → Option (Obj Θ K D)) : List (Op Θ) → Option (List Answer)
  | [] => some []
  | .make i mpt :: ops => run M ev (fun k => if k = i then some (construct M mpt) else s k) ops
  | .copy i j :: ops => do
    let o ← s j
    run M ev (fun k => if k = i then some (copy M o) else s k) ops
  | .eval i q tag E :: ops => do
    let o ← s i
    let (o, a) ← ev o q tag E
    let as ← run M ev (fun k => if k = i then some o else s k) ops
    return a :: as

end

end Muesli

end Ikarus
