import Verif.FE.ElementModel
import Verif.FE.AffordanceModel
import Verif.Tensor.Model
import Mathlib.LinearAlgebra.Matrix.NonsingularInverse
import Mathlib.Data.Real.Basic

/-!
Model of the enhanced assumed strain elements, ikarus/finiteelements/mechanics/enhancedassumedstrains.hh,
strainenhancements/easvariants.hh, strainenhancements/easvariants/*.hh and strainenhancements/easfunctions/*.hh, over the
reals.  Matrices `D.inverse()` of Eigen are `D⁻¹`, meaningful for invertible `D`.  Jacobians, shape functions and the
compatible strains `Dune::linearStrains` and `Dune::greenLagrangeStrains` are evaluated by dune and enter as data.
-/

namespace Ikarus.Element.EAS

open Matrix

variable {n d q m : Nat}

/-! ### Modes -/

/-- A geometry with as many parameters as coordinates; `jacobianTransposed` is the function of dune. -/
structure Geometry (d : Nat) where
  jacobianTransposed : (Fin d → ℝ) → Matrix (Fin d) (Fin d) ℝ

/-- `integrationElement` of dune for such a geometry. -/
def Geometry.integrationElement (geo : Geometry d) (pos : Fin d → ℝ) : ℝ := |(geo.jacobianTransposed pos).det|

/-- `referenceElement.position(0, 0)`, the center of the unit cube (helperfunctions.hh:20-21). -/
noncomputable def center : Fin d → ℝ := fun _ => 1 / 2

/-- A matrix that is set to zero and then assigned entry by entry, the entries functions of the position
(linearandglstrains.hh:86-93 and the other variants). -/
def assign {r c : Nat} (entries : List (Fin r × Fin c × ((Fin d → ℝ) → ℝ))) (pos : Fin d → ℝ) :
    Matrix (Fin r) (Fin c) ℝ :=
  entries.foldl (fun M e => Matrix.of fun i j => if i = e.1 ∧ j = e.2.1 then e.2.2 pos else M i j) 0

/-- `E4` (linearandglstrains.hh:86-93). -/
noncomputable def e4 : List (Fin 3 × Fin 4 × ((Fin 2 → ℝ) → ℝ)) :=
  [(0, 0, fun p => 2 * p 0 - 1.0), (1, 1, fun p => 2 * p 1 - 1.0), (2, 2, fun p => 2 * p 0 - 1.0),
   (2, 3, fun p => 2 * p 1 - 1.0)]

/-- `E5` (linearandglstrains.hh:122-130). -/
noncomputable def e5 : List (Fin 3 × Fin 5 × ((Fin 2 → ℝ) → ℝ)) :=
  [(0, 0, fun p => 2 * p 0 - 1.0), (1, 1, fun p => 2 * p 1 - 1.0), (2, 2, fun p => 2 * p 0 - 1.0),
   (2, 3, fun p => 2 * p 1 - 1.0), (2, 4, fun p => (2 * p 0 - 1.0) * (2 * p 1 - 1.0))]

/-- `E7` (linearandglstrains.hh:159-169). -/
noncomputable def e7 : List (Fin 3 × Fin 7 × ((Fin 2 → ℝ) → ℝ)) :=
  [(0, 0, fun p => 2 * p 0 - 1.0), (1, 1, fun p => 2 * p 1 - 1.0), (2, 2, fun p => 2 * p 0 - 1.0),
   (2, 3, fun p => 2 * p 1 - 1.0), (0, 4, fun p => (2 * p 0 - 1.0) * (2 * p 1 - 1.0)),
   (1, 5, fun p => (2 * p 0 - 1.0) * (2 * p 1 - 1.0)), (2, 6, fun p => (2 * p 0 - 1.0) * (2 * p 1 - 1.0))]

/-- `xi_t`, `eta_t` and their squares (linearandglstrains.hh:204-209). -/
def t (x : ℝ) : ℝ := 2 * x - 1

/-- `E11` (linearandglstrains.hh:200-223). -/
def e11 : List (Fin 3 × Fin 11 × ((Fin 2 → ℝ) → ℝ)) :=
  [(0, 0, fun p => 1 - 3 * (t (p 0) * t (p 0))),
   (0, 1, fun p => t (p 1) - 3 * (t (p 0) * t (p 0)) * t (p 1)),
   (0, 2, fun p => t (p 1) * t (p 1) - 3 * (t (p 0) * t (p 0)) * (t (p 1) * t (p 1))),
   (1, 3, fun p => 1 - 3 * (t (p 1) * t (p 1))),
   (1, 4, fun p => t (p 0) - 3 * t (p 0) * (t (p 1) * t (p 1))),
   (1, 5, fun p => t (p 0) * t (p 0) - 3 * (t (p 0) * t (p 0)) * (t (p 1) * t (p 1))),
   (2, 6, fun p => 1 - 3 * (t (p 0) * t (p 0))),
   (2, 7, fun p => 1 - 3 * (t (p 1) * t (p 1))),
   (2, 8, fun p => t (p 1) - 3 * (t (p 0) * t (p 0)) * t (p 1)),
   (2, 9, fun p => t (p 0) - 3 * t (p 0) * (t (p 1) * t (p 1))),
   (2, 10, fun p => 1 - 3 * (t (p 0) * t (p 0) + t (p 1) * t (p 1)) + 9 * (t (p 0) * t (p 0)) * (t (p 1) * t (p 1)))]

/-- `E9` (linearandglstrains.hh:253-266). -/
noncomputable def e9 : List (Fin 6 × Fin 9 × ((Fin 3 → ℝ) → ℝ)) :=
  [(0, 0, fun p => 2 * p 0 - 1.0), (1, 1, fun p => 2 * p 1 - 1.0), (2, 2, fun p => 2 * p 2 - 1.0),
   (3, 3, fun p => 2 * p 1 - 1.0), (3, 4, fun p => 2 * p 2 - 1.0), (4, 5, fun p => 2 * p 0 - 1.0),
   (4, 6, fun p => 2 * p 2 - 1.0), (5, 7, fun p => 2 * p 0 - 1.0), (5, 8, fun p => 2 * p 1 - 1.0)]

/-- `E21` (linearandglstrains.hh:295-322). -/
noncomputable def e21 : List (Fin 6 × Fin 21 × ((Fin 3 → ℝ) → ℝ)) :=
  [(0, 0, fun p => 2 * p 0 - 1.0), (1, 1, fun p => 2 * p 1 - 1.0), (2, 2, fun p => 2 * p 2 - 1.0),
   (3, 3, fun p => 2 * p 1 - 1.0), (3, 4, fun p => 2 * p 2 - 1.0), (4, 5, fun p => 2 * p 0 - 1.0),
   (4, 6, fun p => 2 * p 2 - 1.0), (5, 7, fun p => 2 * p 0 - 1.0), (5, 8, fun p => 2 * p 1 - 1.0),
   (3, 9, fun p => (2 * p 0 - 1.0) * (2 * p 1 - 1.0)), (3, 10, fun p => (2 * p 0 - 1.0) * (2 * p 2 - 1.0)),
   (4, 11, fun p => (2 * p 0 - 1.0) * (2 * p 1 - 1.0)), (4, 12, fun p => (2 * p 1 - 1.0) * (2 * p 2 - 1.0)),
   (5, 13, fun p => (2 * p 0 - 1.0) * (2 * p 2 - 1.0)), (5, 14, fun p => (2 * p 1 - 1.0) * (2 * p 2 - 1.0)),
   (0, 15, fun p => (2 * p 0 - 1.0) * (2 * p 1 - 1.0)), (0, 16, fun p => (2 * p 0 - 1.0) * (2 * p 2 - 1.0)),
   (1, 17, fun p => (2 * p 0 - 1.0) * (2 * p 1 - 1.0)), (1, 18, fun p => (2 * p 1 - 1.0) * (2 * p 2 - 1.0)),
   (2, 19, fun p => (2 * p 0 - 1.0) * (2 * p 2 - 1.0)), (2, 20, fun p => (2 * p 1 - 1.0) * (2 * p 2 - 1.0))]

/-- `T0InverseTransformed_` in two dimensions (linearandglstrains.hh:34, helperfunctions.hh:18-25). -/
noncomputable def T0Inverse2 (geo : Geometry 2) : Matrix (Fin 3) (Fin 3) ℝ :=
  (geo.integrationElement center • transformationMatrix2 (geo.jacobianTransposed center))⁻¹

/-- `T0InverseTransformed_` in three dimensions (linearandglstrains.hh:34, helperfunctions.hh:18-25). -/
noncomputable def T0Inverse3 (geo : Geometry 3) : Matrix (Fin 6) (Fin 6) ℝ :=
  (geo.integrationElement center • transformationMatrix3 (geo.jacobianTransposed center))⁻¹

/-- `operator()` of the variants in two dimensions (linearandglstrains.hh:85-97, 121-134, 158-173, 199-228). -/
noncomputable def ansatz2 (entries : List (Fin 3 × Fin m × ((Fin 2 → ℝ) → ℝ))) (geo : Geometry 2) (pos : Fin 2 → ℝ) :
    Matrix (Fin 3) (Fin m) ℝ :=
  (geo.integrationElement pos)⁻¹ • T0Inverse2 geo * assign entries pos

/-- `operator()` of the variants in three dimensions (linearandglstrains.hh:252-270, 294-327). -/
noncomputable def ansatz3 (entries : List (Fin 6 × Fin m × ((Fin 3 → ℝ) → ℝ))) (geo : Geometry 3) (pos : Fin 3 → ℝ) :
    Matrix (Fin 6) (Fin m) ℝ :=
  (geo.integrationElement pos)⁻¹ • T0Inverse3 geo * assign entries pos

/-- The matrices `H` of `H4` before they are transformed (displacementgradient.hh:92-103). -/
noncomputable def h4 (pos : Fin 2 → ℝ) : Fin 4 → Matrix (Fin 2) (Fin 2) ℝ :=
  let xi := 2 * pos 0 - 1.0
  let eta := 2 * pos 1 - 1.0
  ![!![xi, 0; 0, 0], !![0, eta; 0, 0], !![0, 0; xi, 0], !![0, 0; 0, eta]]

/-- The matrices `H` of `H9` before they are transformed (displacementgradient.hh:137-155). -/
noncomputable def h9 (pos : Fin 3 → ℝ) : Fin 9 → Matrix (Fin 3) (Fin 3) ℝ :=
  let xi := 2 * pos 0 - 1.0
  let eta := 2 * pos 1 - 1.0
  let zeta := 2 * pos 2 - 1.0
  ![!![xi, 0, 0; 0, 0, 0; 0, 0, 0], !![0, eta, 0; 0, 0, 0; 0, 0, 0], !![0, 0, zeta; 0, 0, 0; 0, 0, 0],
    !![0, 0, 0; xi, 0, 0; 0, 0, 0], !![0, 0, 0; 0, eta, 0; 0, 0, 0], !![0, 0, 0; 0, 0, zeta; 0, 0, 0],
    !![0, 0, 0; 0, 0, 0; xi, 0, 0], !![0, 0, 0; 0, 0, 0; 0, eta, 0], !![0, 0, 0; 0, 0, 0; 0, 0, zeta]]

/-- `transformDisplacementGradient` (helperfunctions.hh:27-36); `jacobianInverseTransposed` of dune is the inverse of the
transposed Jacobian. -/
noncomputable def transformDisplacementGradient (geo : Geometry d) (H : Matrix (Fin d) (Fin d) ℝ) (pos : Fin d → ℝ) :
    Matrix (Fin d) (Fin d) ℝ :=
  let detJ0 := geo.integrationElement center
  let detJ := geo.integrationElement pos
  let JInv := (geo.jacobianTransposed center)⁻¹
  (detJ0 / detJ) • JInv * H * JInvᵀ

/-- `operator()` of `H4` and `H9` (displacementgradient.hh:91-109, 136-161). -/
noncomputable def ansatzH (modes : (Fin d → ℝ) → Fin m → Matrix (Fin d) (Fin d) ℝ) (geo : Geometry d) (pos : Fin d → ℝ) :
    Fin m → Matrix (Fin d) (Fin d) ℝ := fun p => transformDisplacementGradient geo (modes pos p) pos

/-- The strain functions that can be enhanced. -/
inductive StrainFunction
  | linear
  | greenLagrange
  | displacementGradient
  | displacementGradientTransposed

/-- `createEASType` (easvariants.hh:101-165): the number of parameters of the variant, `none` if the function throws. -/
def createEASType (f : StrainFunction) (dim : Nat) (numberOfEASParameters : Int) : Option Nat :=
  if numberOfEASParameters = 0 then some 0
  else match f with
    | .linear | .greenLagrange =>
      if dim = 2 then
        if numberOfEASParameters = 4 then some 4
        else if numberOfEASParameters = 5 then some 5
        else if numberOfEASParameters = 7 then some 7
        else if numberOfEASParameters = 11 then some 11
        else none
      else if numberOfEASParameters = 9 then some 9
      else if numberOfEASParameters = 21 then some 21
      else none
    | .displacementGradient | .displacementGradientTransposed =>
      if dim = 2 then
        if numberOfEASParameters = 4 then some 4 else none
      else if numberOfEASParameters = 9 then some 9 else none

/-! ### The element -/

/-- An integration point: `integrationElement`, `weight` and the static functions of the enhanced strain function, the
strain and its derivatives with respect to the nodal displacements `d` and the internal variables `a`; second
derivatives along a stress (enhancedassumedstrains.hh:275-284, 392-405). -/
structure EASPoint (n d q m : Nat) where
  detJ : ℝ
  weight : ℝ
  strain : NodeVec n d → (Fin m → ℝ) → Fin q → ℝ
  Ed : NodeVec n d → (Fin m → ℝ) → Fin n → Matrix (Fin q) (Fin d) ℝ
  Ea : NodeVec n d → (Fin m → ℝ) → Matrix (Fin q) (Fin m) ℝ
  Edd : NodeVec n d → (Fin m → ℝ) → (Fin q → ℝ) → Fin n → Fin n → Matrix (Fin d) (Fin d) ℝ
  Eaa : NodeVec n d → (Fin m → ℝ) → (Fin q → ℝ) → Matrix (Fin m) (Fin m) ℝ
  Ead : NodeVec n d → (Fin m → ℝ) → (Fin q → ℝ) → Fin n → Matrix (Fin m) (Fin d) ℝ

/-- `DMat` of `calculateDAndLMatrix` (enhancedassumedstrains.hh:378-410). -/
def calculateD (law : Law q) (gps : List (EASPoint n d q m)) (u : NodeVec n d) (alpha : Fin m → ℝ) :
    Matrix (Fin m) (Fin m) ℝ :=
  gps.foldl (fun D gp =>
    let strain := gp.strain u alpha
    D + (gp.detJ * gp.weight) • ((gp.Ea u alpha)ᵀ * law.tangent strain * gp.Ea u alpha +
      gp.Eaa u alpha (law.stress strain))) 0

/-- `LMat` of `calculateDAndLMatrix` (enhancedassumedstrains.hh:378-410), one block of columns for every node. -/
def calculateL (law : Law q) (gps : List (EASPoint n d q m)) (u : NodeVec n d) (alpha : Fin m → ℝ) :
    Fin n → Matrix (Fin m) (Fin d) ℝ :=
  gps.foldl (fun L gp =>
    let strain := gp.strain u alpha
    (List.finRange n).foldl (fun L i => Function.update L i (L i +
      (gp.detJ * gp.weight) • ((gp.Ea u alpha)ᵀ * law.tangent strain * gp.Ed u alpha i +
        gp.Ead u alpha (law.stress strain) i))) L) 0

/-- `calculateRtilde` (enhancedassumedstrains.hh:412-434). -/
def calculateRtilde (law : Law q) (gps : List (EASPoint n d q m)) (u : NodeVec n d) (alpha : Fin m → ℝ) : Fin m → ℝ :=
  gps.foldl (fun R gp => R + (gp.detJ * gp.weight) • ((gp.Ea u alpha)ᵀ *ᵥ law.stress (gp.strain u alpha))) 0

/-- `easApplicabilityCheck` (enhancedassumedstrains.hh:250-256), whether it passes. -/
def applicable (n d m : Nat) : Bool :=
  (n == 4 && d == 2) || (n == 9 && d == 2) || (n == 8 && d == 3) || m == 0

/-- `L_ * localdx` (enhancedassumedstrains.hh:243). -/
def mulL (L : Fin n → Matrix (Fin m) (Fin d) ℝ) (dx : NodeVec n d) : Fin m → ℝ := ∑ I, L I *ᵥ dx I

/-- `updateStateImpl` (enhancedassumedstrains.hh:225-248): the new internal variables; `correctionSize` and
`solutionSize` are the sizes of the global vectors, `dx` the part of the correction at the element. -/
noncomputable def updateState (law : Law q) (gps : List (EASPoint n d q m)) (u : NodeVec n d) (alpha : Fin m → ℝ)
    (solutionSize correctionSize : Nat) (dx : NodeVec n d) : Option (Fin m → ℝ) :=
  if !applicable n d m then none
  else if m = 0 then some alpha
  else if correctionSize ≠ solutionSize then none
  else
    let Rtilde := calculateRtilde law gps u alpha
    let D := calculateD law gps u alpha
    let L := calculateL law gps u alpha
    some (alpha - D⁻¹ *ᵥ (Rtilde + mulL L dx))

/-- `K.triangularView<Upper>() -= M` followed by `K.triangularView<StrictlyLower>() = K.transpose()`
(enhancedassumedstrains.hh:294-295); entry `(I * d + a, J * d + b)` of the matrix is entry `(a, b)` of block `(I, J)`. -/
def subtractUpperAndMirror (K M : BlockMat n d) : BlockMat n d := fun I J => Matrix.of fun a b =>
  if J < I ∨ (I = J ∧ b < a) then K J I b a - M J I b a else K I J a b - M I J a b

/-- `calculateMatrixImpl` (enhancedassumedstrains.hh:258-299). -/
noncomputable def calculateMatrix (law : Law q) (gps : List (EASPoint n d q m)) (affordance : MatrixAffordance)
    (u : NodeVec n d) (alpha : Fin m → ℝ) (K : BlockMat n d) : Option (BlockMat n d) :=
  if affordance ≠ .stiffness then none
  else if !applicable n d m then none
  else
    let K := gps.foldl (fun K gp =>
      let strain := gp.strain u alpha
      let stresses := law.stress strain
      (List.finRange n).foldl (fun K i =>
        (List.finRange n).foldl (fun K j =>
          let K := addBlock K i j ((gp.detJ * gp.weight) •
            ((gp.Ed u alpha i)ᵀ * law.tangent strain * gp.Ed u alpha j))
          addBlock K i j ((gp.detJ * gp.weight) • gp.Edd u alpha stresses i j)) K) K) K
    if m = 0 then some K
    else
      let D := calculateD law gps u alpha
      let L := calculateL law gps u alpha
      some (subtractUpperAndMirror K fun I J => (L I)ᵀ * D⁻¹ * L J)

/-- `calculateVectorImpl` (enhancedassumedstrains.hh:312-348). -/
noncomputable def calculateVector (law : Law q) (gps : List (EASPoint n d q m)) (affordance : VectorAffordance)
    (u : NodeVec n d) (alpha : Fin m → ℝ) (force : NodeVec n d) : Option (NodeVec n d) :=
  if affordance ≠ .forces then none
  else if !applicable n d m then none
  else
    let force := gps.foldl (fun force gp =>
      let stresses := law.stress (gp.strain u alpha)
      (List.finRange n).foldl (fun force i =>
        addSegment force i ((gp.detJ * gp.weight) • ((gp.Ed u alpha i)ᵀ *ᵥ stresses))) force) force
    if m = 0 then some force
    else
      let D := calculateD law gps u alpha
      let L := calculateL law gps u alpha
      let Rtilde := calculateRtilde law gps u alpha
      some (force - fun I => ((L I)ᵀ * D⁻¹) *ᵥ Rtilde)

/-- `calculateScalarImpl` (enhancedassumedstrains.hh:301-310); the energy is the one of the displacement element
(`energyFunction`), without enhanced strain. -/
noncomputable def calculateScalar (law : Law q) (gps : List (Point n d q)) (m : Nat) (u : NodeVec n d) : Option ℝ :=
  if !applicable n d m then none
  else if m = 0 then some (NonLinearElastic.calculateScalar false law gps u)
  else none

/-- The internal variables used for linear stresses (enhancedassumedstrains.hh:151-157). -/
noncomputable def linearAlpha (law : Law q) (gps : List (EASPoint n d q m)) (u : NodeVec n d) (alpha : Fin m → ℝ) :
    Fin m → ℝ :=
  if m = 0 then 0
  else -((calculateD law gps u alpha)⁻¹ *ᵥ mulL (calculateL law gps u alpha) u)

/-! ### Enhanced strain functions -/

/-- `LinearStrain` and `GreenLagrangeStrain` (linearstrain.hh:40-138, greenlagrangestrain.hh:40-141): the strain of
dune-localfefunctions, here any strain `p` with its derivatives, plus the modes `M`. -/
def additive (p : Point n d q) (M : Matrix (Fin q) (Fin m) ℝ) : EASPoint n d q m where
  detJ := p.detJ
  weight := p.weight
  strain u alpha := p.strain u + M *ᵥ alpha
  Ed u _ I := p.bop u I
  Ea _ _ := M
  Edd u _ S I J := p.kg u S I J
  Eaa _ _ _ := 0
  Ead _ _ _ _ := 0

/-- The gradient of the displacements, `uFunction.evaluateDerivative(gpPos, wrt(spatialAll), on(gridElement))`, from the
derivatives `dN` of the shape functions in coordinates of the grid. -/
def gradient (dN : Fin n → Fin d → ℝ) (u : NodeVec n d) : Matrix (Fin d) (Fin d) ℝ :=
  Matrix.of fun i j => ∑ I, u I i * dN I j

/-- `value` from the displacement gradient in two dimensions (displacementgradient.hh:86-87,
displacementgradienttransposed.hh:79-80). -/
noncomputable def greenLagrange2 (H : Matrix (Fin 2) (Fin 2) ℝ) : Fin 3 → ℝ :=
  toVoigt2 ((0.5 : ℝ) • (H + Hᵀ + Hᵀ * H)) true

/-- `value` from the displacement gradient in three dimensions. -/
noncomputable def greenLagrange3 (H : Matrix (Fin 3) (Fin 3) ℝ) : Fin 6 → ℝ :=
  toVoigt3 ((0.5 : ℝ) • (H + Hᵀ + Hᵀ * H)) true

/-- `bopI` for `myDim == 2`, the rows from the derivatives `dN` and the columns of `F`
(displacementgradient.hh:135-139, displacementgradienttransposed.hh:141-145). -/
def bop2 (F : Matrix (Fin 2) (Fin 2) ℝ) (dN : Fin 2 → ℝ) : Matrix (Fin 3) (Fin 2) ℝ :=
  let g0 := Fᵀ 0
  let g1 := Fᵀ 1
  Matrix.of ![dN 0 • g0, dN 1 • g1, dN 1 • g0 + dN 0 • g1]

/-- `bopI` for `myDim == 3` (displacementgradient.hh:135-146, displacementgradienttransposed.hh:141-152). -/
def bop3 (F : Matrix (Fin 3) (Fin 3) ℝ) (dN : Fin 3 → ℝ) : Matrix (Fin 6) (Fin 3) ℝ :=
  let g0 := Fᵀ 0
  let g1 := Fᵀ 1
  let g2 := Fᵀ 2
  Matrix.of ![dN 0 • g0, dN 1 • g1, dN 2 • g2, dN 2 • g1 + dN 1 • g2, dN 2 • g0 + dN 0 • g2, dN 1 • g0 + dN 0 • g1]

/-- Column `p` of `M` for `myDim == 2` (displacementgradient.hh:154-158, displacementgradienttransposed.hh:159-163). -/
def columnM2 (F Htilde : Matrix (Fin 2) (Fin 2) ℝ) : Fin 3 → ℝ :=
  let g0 := Fᵀ 0
  let g1 := Fᵀ 1
  ![Htildeᵀ 0 ⬝ᵥ g0, Htildeᵀ 1 ⬝ᵥ g1, Htildeᵀ 1 ⬝ᵥ g0 + Htildeᵀ 0 ⬝ᵥ g1]

/-- Column `p` of `M` for `myDim == 3` (displacementgradient.hh:154-165, displacementgradienttransposed.hh:159-170). -/
def columnM3 (F Htilde : Matrix (Fin 3) (Fin 3) ℝ) : Fin 6 → ℝ :=
  let g0 := Fᵀ 0
  let g1 := Fᵀ 1
  let g2 := Fᵀ 2
  ![Htildeᵀ 0 ⬝ᵥ g0, Htildeᵀ 1 ⬝ᵥ g1, Htildeᵀ 2 ⬝ᵥ g2, Htildeᵀ 2 ⬝ᵥ g1 + Htildeᵀ 1 ⬝ᵥ g2,
    Htildeᵀ 2 ⬝ᵥ g0 + Htildeᵀ 0 ⬝ᵥ g2, Htildeᵀ 1 ⬝ᵥ g0 + Htildeᵀ 0 ⬝ᵥ g1]

/-- What depends on the dimension in the displacement gradient functions: strain, `bopI`, a column of `M` and the Voigt
index of a pair (tensorutils.hh:182-202). -/
structure Dimension (d q : Nat) where
  greenLagrange : Matrix (Fin d) (Fin d) ℝ → Fin q → ℝ
  bop : Matrix (Fin d) (Fin d) ℝ → (Fin d → ℝ) → Matrix (Fin q) (Fin d) ℝ
  columnM : Matrix (Fin d) (Fin d) ℝ → Matrix (Fin d) (Fin d) ℝ → Fin q → ℝ
  voigt : Fin d → Fin d → Fin q

/-- The branch `myDim == 2`. -/
noncomputable def plane : Dimension 2 3 := ⟨greenLagrange2, bop2, columnM2, fun i j => if i = j then ⟨i, by omega⟩ else 2⟩

/-- The branch `myDim == 3`. -/
noncomputable def space : Dimension 3 6 := ⟨greenLagrange3, bop3, columnM3, voigt3⟩

/-- The double loop over `i`, `j` with `sij * (x.col(i) * y.col(j) + x.col(j) * y.col(i))`
(displacementgradient.hh:218-227, 243-251; displacementgradienttransposed.hh:259-269). -/
noncomputable def alongStress (dim : Dimension d q) (S : Fin q → ℝ) (x y : Matrix (Fin d) (Fin d) ℝ) : ℝ :=
  (List.finRange d).foldl (fun kg i => (List.finRange d).foldl (fun kg j =>
    let sij := 0.5 * S (dim.voigt i j)
    kg + sij * (xᵀ i ⬝ᵥ yᵀ j + xᵀ j ⬝ᵥ yᵀ i)) kg) 0

/-- `dNIdT[q]` (displacementgradient.hh:237-241): row `q` holds the derivatives. -/
def rowMatrix (q : Fin d) (dN : Fin d → ℝ) : Matrix (Fin d) (Fin d) ℝ :=
  Matrix.of fun i j => if i = q then dN j else 0

/-- `Htilde`, the sum of the modes times the internal variables (displacementgradient.hh:58-61,
displacementgradienttransposed.hh:364-367). -/
def sumModes (H : Fin m → Matrix (Fin d) (Fin d) ℝ) (alpha : Fin m → ℝ) : Matrix (Fin d) (Fin d) ℝ :=
  (List.finRange m).foldl (fun Ht p => Ht + alpha p • H p) 0

/-- `DisplacementGradient` (displacementgradient.hh:28-280) at an integration point with the modes `H` and derivatives
`dN` of the shape functions.  `Edd` is the second derivative of `Dune::greenLagrangeStrains`, scaled identities. -/
noncomputable def displacementGradient (dim : Dimension d q) (detJ weight : ℝ) (dN : Fin n → Fin d → ℝ)
    (H : Fin m → Matrix (Fin d) (Fin d) ℝ) : EASPoint n d q m where
  detJ := detJ
  weight := weight
  strain u alpha := dim.greenLagrange (gradient dN u + sumModes H alpha)
  Ed u alpha I := dim.bop (1 + (gradient dN u + sumModes H alpha)) (dN I)
  Ea u alpha := Matrix.of fun k p => dim.columnM (1 + (gradient dN u + sumModes H alpha)) (H p) k
  Edd _ _ S I J := (∑ i, ∑ j, S (dim.voigt i j) * dN I i * dN J j) • 1
  Eaa _ _ S := Matrix.of fun p r => alongStress dim S (H p) (H r)
  Ead _ _ S I := Matrix.of fun p r => alongStress dim S (H p) (rowMatrix r (dN I))

/-- `val` of `E,dd` for `myDim == 2` (displacementgradienttransposed.hh:245). -/
def val2 (S : Fin 3 → ℝ) (dNI dNJ : Fin 2 → ℝ) : ℝ :=
  S 0 * dNI 0 * dNJ 0 + S 1 * dNI 1 * dNJ 1 + S 2 * (dNI 0 * dNJ 1 + dNI 1 * dNJ 0)

/-- `val` of `E,dd` for `myDim == 3` (displacementgradienttransposed.hh:247-249). -/
def val3 (S : Fin 6 → ℝ) (dNI dNJ : Fin 3 → ℝ) : ℝ :=
  S 0 * dNI 0 * dNJ 0 + S 1 * dNI 1 * dNJ 1 + S 2 * dNI 2 * dNJ 2 + S 3 * (dNI 2 * dNJ 1 + dNI 1 * dNJ 2) +
    S 4 * (dNI 0 * dNJ 2 + dNI 2 * dNJ 0) + S 5 * (dNI 0 * dNJ 1 + dNI 1 * dNJ 0)

/-- `dN + dNtilde` (displacementgradienttransposed.hh:133-140, 233-242, 285-287). -/
def enhancedDN (H : Fin m → Matrix (Fin d) (Fin d) ℝ) (alpha : Fin m → ℝ) (dN dN0 : Fin d → ℝ) : Fin d → ℝ :=
  dN + (List.finRange m).foldl (fun v t => v + H t *ᵥ (alpha t • dN0)) 0

/-- `kg(p, q)` of `E,ad` (displacementgradienttransposed.hh:308-321). -/
noncomputable def alongStressTransposed (dim : Dimension d q) (S : Fin q → ℝ) (Hp dNIdT dNXHtilde F : Matrix (Fin d) (Fin d) ℝ) :
    ℝ :=
  (List.finRange d).foldl (fun kg i => (List.finRange d).foldl (fun kg j =>
    let sij := 0.5 * S (dim.voigt i j)
    kg + sij * (Hpᵀ i ⬝ᵥ dNIdTᵀ j + Hpᵀ j ⬝ᵥ dNIdTᵀ i + dNXHtildeᵀ i ⬝ᵥ Fᵀ j + dNXHtildeᵀ j ⬝ᵥ Fᵀ i)) kg) 0

/-- `DisplacementGradientTransposed` (displacementgradienttransposed.hh:30-383); `dN0` are the derivatives of the shape
functions at the center, `val` is `val2` or `val3`. -/
noncomputable def displacementGradientTransposed (dim : Dimension d q) (val : (Fin q → ℝ) → (Fin d → ℝ) → (Fin d → ℝ) → ℝ)
    (detJ weight : ℝ) (dN dN0 : Fin n → Fin d → ℝ) (H : Fin m → Matrix (Fin d) (Fin d) ℝ) : EASPoint n d q m where
  detJ := detJ
  weight := weight
  strain u alpha := dim.greenLagrange (gradient dN u + (1 + gradient dN0 u) * (sumModes H alpha)ᵀ)
  Ed u alpha I := dim.bop (1 + (gradient dN u + (1 + gradient dN0 u) * (sumModes H alpha)ᵀ))
    (enhancedDN H alpha (dN I) (dN0 I))
  Ea u alpha := Matrix.of fun k p => dim.columnM (1 + (gradient dN u + (1 + gradient dN0 u) * (sumModes H alpha)ᵀ))
    ((1 + gradient dN0 u) * (H p)ᵀ) k
  Edd _ alpha S I J := val S (enhancedDN H alpha (dN I) (dN0 I)) (enhancedDN H alpha (dN J) (dN0 J)) • 1
  Eaa u _ S := Matrix.of fun p r =>
    alongStress dim S ((1 + gradient dN0 u) * (H p)ᵀ) ((1 + gradient dN0 u) * (H r)ᵀ)
  Ead u alpha S I := Matrix.of fun p r => alongStressTransposed dim S ((1 + gradient dN0 u) * (H p)ᵀ)
    (rowMatrix r (enhancedDN H alpha (dN I) (dN0 I))) (rowMatrix r (dN0 I) * (H p)ᵀ)
    (1 + (gradient dN u + (1 + gradient dN0 u) * (sumModes H alpha)ᵀ))

end Ikarus.Element.EAS
