import Mathlib.Data.Matrix.Mul
import Mathlib.Data.Real.Basic
import Mathlib.Data.Fin.VecNotation

/-!
Model of the displacement elements and loads, ikarus/finiteelements/mechanics/{linearelastic,nonlinearelastic,
membranestrains}.hh and loads/{volume,traction}.hh.  Numbers are real.

An element vector is given node by node and an element matrix block by block: entry `I * d + a` of the code is
component `a` of node `I`.  Geometry, shape functions and integration rule are evaluated by dune and enter as data of
the integration points.
-/

namespace Ikarus.Element

open Matrix

variable {n d q : Nat}

/-- Values at the nodes: an element vector, or the nodal displacements. -/
abbrev NodeVec (n d : Nat) := Fin n → Fin d → ℝ

/-- An element matrix in blocks. -/
abbrev BlockMat (n d : Nat) := Fin n → Fin n → Matrix (Fin d) (Fin d) ℝ

/-- `force.segment<d>(d * I) += v` (linearelastic.hh:325, nonlinearelastic.hh:340). -/
def addSegment (f : NodeVec n d) (I : Fin n) (v : Fin d → ℝ) : NodeVec n d := Function.update f I (f I + v)

/-- `K.block<d, d>(I * d, J * d) += M` (linearelastic.hh:305, nonlinearelastic.hh:300 and 320). -/
def addBlock (K : BlockMat n d) (I J : Fin n) (M : Matrix (Fin d) (Fin d) ℝ) : BlockMat n d :=
  Function.update K I (Function.update (K I) J (K I J + M))

/-! ### LinearElastic -/

/-- An integration point of the linear element: `integrationElement`, `weight` and the derivatives of
`Dune::linearStrains` with respect to the nodes (linearelastic.hh:142-144, 365-370).  The linear strains do not
depend on the displacements through them. -/
structure LinPoint (n d q : Nat) where
  detJ : ℝ
  weight : ℝ
  bop : Fin n → Matrix (Fin q) (Fin d) ℝ

/-- `eps.evaluate(gpIndex, on(gridElement))` (linearelastic.hh:345, 366, 398): the linear strains of dune-localfefunctions
are the sum of the nodal contributions. -/
def LinPoint.strain (p : LinPoint n d q) (u : NodeVec n d) : Fin q → ℝ := ∑ I, p.bop I *ᵥ u I

namespace LinearElastic

/-- `internalEnergy` (linearelastic.hh:158-162); `C` is the material tangent, which a geometrically linear material
returns independently of the strain (188-193). -/
noncomputable def internalEnergy (C : Matrix (Fin q) (Fin q) ℝ) (strain : Fin q → ℝ) : ℝ :=
  0.5 * (strain ⬝ᵥ (C *ᵥ strain))

/-- `stress` (linearelastic.hh:173-177). -/
def stress (C : Matrix (Fin q) (Fin q) ℝ) (strain : Fin q → ℝ) : Fin q → ℝ := C *ᵥ strain

/-- `calculateScalarImpl` and `energyFunction` (linearelastic.hh:337-350, 377-383). -/
noncomputable def calculateScalar (isMixed : Bool) (C : Matrix (Fin q) (Fin q) ℝ) (gps : List (LinPoint n d q))
    (u : NodeVec n d) : ℝ :=
  if isMixed then 0
  else gps.foldl (fun energy gp => energy + internalEnergy C (gp.strain u) * gp.detJ * gp.weight) 0

/-- `calculateVectorImpl` and `internalForcesFunction` (linearelastic.hh:320-327, 385-405). -/
def calculateVector (isMixed : Bool) (C : Matrix (Fin q) (Fin q) ℝ) (gps : List (LinPoint n d q))
    (u : NodeVec n d) (force : NodeVec n d) : NodeVec n d :=
  if isMixed then force
  else gps.foldl (fun force gp =>
    let stresses := stress C (gp.strain u)
    (List.finRange n).foldl (fun force i =>
      addSegment force i ((gp.detJ * gp.weight) • ((gp.bop i)ᵀ *ᵥ stresses))) force) force

/-- `calculateMatrixImpl` and `materialStiffnessMatrixFunction` (linearelastic.hh:298-307, 353-375). -/
def calculateMatrix (isMixed : Bool) (C : Matrix (Fin q) (Fin q) ℝ) (gps : List (LinPoint n d q))
    (K : BlockMat n d) : BlockMat n d :=
  if isMixed then K
  else gps.foldl (fun K gp =>
    (List.finRange n).foldl (fun K i =>
      (List.finRange n).foldl (fun K j =>
        addBlock K i j ((gp.detJ * gp.weight) • ((gp.bop i)ᵀ * C * gp.bop j))) K) K) K

end LinearElastic

/-! ### NonLinearElastic -/

/-- An integration point of the nonlinear element: `integrationElement`, `weight`, the strain as function of the
nodal displacements, its derivatives with respect to the nodes and its second derivatives along a stress
(nonlinearelastic.hh:153-155, 387-394). -/
structure Point (n d q : Nat) where
  detJ : ℝ
  weight : ℝ
  strain : NodeVec n d → Fin q → ℝ
  bop : NodeVec n d → Fin n → Matrix (Fin q) (Fin d) ℝ
  kg : NodeVec n d → (Fin q → ℝ) → Fin n → Fin n → Matrix (Fin d) (Fin d) ℝ

/-- The functions of the material used by the element (nonlinearelastic.hh:165-196). -/
structure Law (q : Nat) where
  energy : (Fin q → ℝ) → ℝ
  stress : (Fin q → ℝ) → Fin q → ℝ
  tangent : (Fin q → ℝ) → Matrix (Fin q) (Fin q) ℝ

namespace NonLinearElastic

/-- `calculateScalarImpl` and `energyFunction` (nonlinearelastic.hh:352-365, 402-408). -/
noncomputable def calculateScalar (isMixed : Bool) (law : Law q) (gps : List (Point n d q)) (u : NodeVec n d) : ℝ :=
  if isMixed then 0
  else gps.foldl (fun energy gp => energy + law.energy (gp.strain u) * gp.detJ * gp.weight) 0

/-- `calculateVectorImpl` and `internalForcesFunction` (nonlinearelastic.hh:335-342, 410-430). -/
def calculateVector (isMixed : Bool) (law : Law q) (gps : List (Point n d q)) (u : NodeVec n d)
    (force : NodeVec n d) : NodeVec n d :=
  if isMixed then force
  else gps.foldl (fun force gp =>
    let stresses := law.stress (gp.strain u)
    (List.finRange n).foldl (fun force i =>
      addSegment force i ((gp.detJ * gp.weight) • ((gp.bop u i)ᵀ *ᵥ stresses))) force) force

/-- `calculateMatrixImpl`, `materialStiffnessMatrixFunction` and `geometricStiffnessMatrixFunction`
(nonlinearelastic.hh:294-322, 375-400). -/
def calculateMatrix (isMixed : Bool) (law : Law q) (gps : List (Point n d q)) (u : NodeVec n d)
    (K : BlockMat n d) : BlockMat n d :=
  if isMixed then K
  else gps.foldl (fun K gp =>
    let strain := gp.strain u
    let stresses := law.stress strain
    (List.finRange n).foldl (fun K i =>
      (List.finRange n).foldl (fun K j =>
        let K := addBlock K i j ((gp.detJ * gp.weight) • ((gp.bop u i)ᵀ * law.tangent strain * gp.bop u j))
        addBlock K i j ((gp.detJ * gp.weight) • gp.kg u stresses i j)) K) K) K

end NonLinearElastic

/-! ### DefaultMembraneStrain -/

namespace Membrane

/-- `gradu.col(a)`: the derivative of the displacement with respect to the reference coordinate `a`
(membranestrains.hh:37-39); `dN` are the derivatives of the shape functions. -/
def gradu (dN : Fin n → Fin 2 → ℝ) (u : NodeVec n 3) (a : Fin 2) : Fin 3 → ℝ := ∑ I, dN I a • u I

/-- `j.row(a)`, with `J` the rows of `jacobianTransposed` (membranestrains.hh:34, 40). -/
def jcur (J : Fin 2 → Fin 3 → ℝ) (dN : Fin n → Fin 2 → ℝ) (u : NodeVec n 3) (a : Fin 2) : Fin 3 → ℝ :=
  J a + gradu dN u a

/-- `DefaultMembraneStrain::value` (membranestrains.hh:29-45). -/
noncomputable def value (J : Fin 2 → Fin 3 → ℝ) (dN : Fin n → Fin 2 → ℝ) (u : NodeVec n 3) : Fin 3 → ℝ :=
  ![J 0 ⬝ᵥ gradu dN u 0 + 0.5 * (gradu dN u 0 ⬝ᵥ gradu dN u 0),
    J 1 ⬝ᵥ gradu dN u 1 + 0.5 * (gradu dN u 1 ⬝ᵥ gradu dN u 1),
    jcur J dN u 0 ⬝ᵥ jcur J dN u 1 - J 0 ⬝ᵥ J 1]

/-- `DefaultMembraneStrain::derivative` (membranestrains.hh:63-73). -/
def derivative (J : Fin 2 → Fin 3 → ℝ) (dN : Fin n → Fin 2 → ℝ) (u : NodeVec n 3) (node : Fin n) :
    Matrix (Fin 3) (Fin 3) ℝ :=
  Matrix.of ![dN node 0 • jcur J dN u 0, dN node 1 • jcur J dN u 1,
    dN node 1 • jcur J dN u 0 + dN node 0 • jcur J dN u 1]

/-- `DefaultMembraneStrain::secondDerivative` (membranestrains.hh:94-105). -/
def secondDerivative (dN : Fin n → Fin 2 → ℝ) (S : Fin 3 → ℝ) (I J : Fin n) : Matrix (Fin 3) (Fin 3) ℝ :=
  (dN I 0 * dN J 0 * S 0 + dN I 1 * dN J 1 * S 1 + (dN I 0 * dN J 1 + dN I 1 * dN J 0) * S 2) •
    (1 : Matrix (Fin 3) (Fin 3) ℝ)

/-- An integration point with these strains. -/
noncomputable def point (detJ weight : ℝ) (J : Fin 2 → Fin 3 → ℝ) (dN : Fin n → Fin 2 → ℝ) : Point n 3 3 where
  detJ := detJ
  weight := weight
  strain := value J dN
  bop := derivative J dN
  kg := fun _ S => secondDerivative dN S

end Membrane

/-! ### Loads -/

/-- An integration point for a load: position, integration element, weight and values of the shape functions. -/
structure LoadPoint (n d : Nat) where
  x : Fin d → ℝ
  detJ : ℝ
  weight : ℝ
  N : Fin n → ℝ

/-- `uFunction.evaluate(gpIndex)` (volume.hh:79, traction.hh:94). -/
def LoadPoint.displacement (p : LoadPoint n d) (u : NodeVec n d) : Fin d → ℝ := ∑ I, p.N I • u I

/-- A load function of position and load factor. -/
abbrev LoadFunction (d : Nat) := (Fin d → ℝ) → ℝ → Fin d → ℝ

namespace VolumeLoad

/-- `calculateScalarImpl` (volume.hh:67-84); no load is an empty `std::function`. -/
noncomputable def calculateScalar (load : Option (LoadFunction d)) (gps : List (LoadPoint n d)) (lambda : ℝ)
    (u : NodeVec n d) : ℝ :=
  match load with
  | none => 0
  | some f => gps.foldl (fun energy gp =>
      energy - (gp.displacement u ⬝ᵥ f gp.x lambda) * gp.detJ * gp.weight) 0

/-- `calculateVectorImpl` (volume.hh:86-106).  The derivative of the displacement with respect to node `i` is the shape
function times the identity. -/
def calculateVector (load : Option (LoadFunction d)) (gps : List (LoadPoint n d)) (lambda : ℝ)
    (force : NodeVec n d) : NodeVec n d :=
  match load with
  | none => force
  | some f => gps.foldl (fun force gp =>
      let fext := f gp.x lambda
      (List.finRange n).foldl (fun force i =>
        addSegment force i (-((gp.detJ * gp.weight) • ((gp.N i • (1 : Matrix (Fin d) (Fin d) ℝ)) *ᵥ fext)))) force) force

/-- `calculateMatrixImpl` (volume.hh:108-111). -/
def calculateMatrix (K : BlockMat n d) : BlockMat n d := K

end VolumeLoad

namespace Traction

/-- An intersection of the element: whether the boundary patch contains it, and its integration points. -/
structure Intersection (n d : Nat) where
  contained : Bool
  points : List (LoadPoint n d)

/-- The body of the quadrature loop (traction.hh:87-100); calling an empty `std::function` throws, `none`. -/
noncomputable def pointEnergy (load : Option (LoadFunction d)) (lambda : ℝ) (u : NodeVec n d) (energy : ℝ)
    (p : LoadPoint n d) : Option ℝ :=
  match load with
  | none => none
  | some t => some (energy - (t p.x lambda ⬝ᵥ p.displacement u) * p.weight * p.detJ)

/-- `calculateScalarImpl` (traction.hh:70-103).  `boundary` is the pointer to the patch, given by the intersections of
the element; dereferencing a null pointer is `none`. -/
noncomputable def calculateScalar (boundary : Option (List (Intersection n d))) (load : Option (LoadFunction d))
    (lambda : ℝ) (u : NodeVec n d) : Option ℝ :=
  if boundary.isNone && load.isNone then some 0
  else match boundary with
    | none => none
    | some is => is.foldlM (fun energy i =>
        if i.contained then i.points.foldlM (pointEnergy load lambda u) energy else some energy) 0

/-- The body of the loop over the nodes (traction.hh:129-135). -/
def pointForce (load : Option (LoadFunction d)) (lambda : ℝ) (p : LoadPoint n d) (force : NodeVec n d) (i : Fin n) :
    Option (NodeVec n d) :=
  match load with
  | none => none
  | some t => some (addSegment force i
      (-((p.weight * p.detJ) • ((p.N i • (1 : Matrix (Fin d) (Fin d) ℝ)) *ᵥ t p.x lambda))))

/-- `calculateVectorImpl` (traction.hh:105-138). -/
def calculateVector (boundary : Option (List (Intersection n d))) (load : Option (LoadFunction d))
    (lambda : ℝ) (force : NodeVec n d) : Option (NodeVec n d) :=
  if boundary.isNone && load.isNone then some force
  else match boundary with
    | none => none
    | some is => is.foldlM (fun force i =>
        if i.contained then
          i.points.foldlM (fun force p => (List.finRange n).foldlM (pointForce load lambda p) force) force
        else some force) force

end Traction

end Ikarus.Element
