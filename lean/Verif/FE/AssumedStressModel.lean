import Verif.FE.EASModel

/-!
Model of the assumed stress elements: `ikarus/finiteelements/mechanics/assumedstress.hh`, the stress functions in
`assumedstress/asfunctions` and the variants in `assumedstress/asvariants`.
-/

namespace Ikarus.Element.AssumedStress

open Matrix Ikarus.Element.EAS

variable {n d q m g : Nat}

/-! ### Modes -/

/-- `2.0 * quadPos[i] - 1.0` (linearandpk2stress.hh:80-81, 119-121, 184-186, 255-257). -/
noncomputable def coord (x : ℝ) : ℝ := 2 * x - 1.0

/-- `S5` (linearandpk2stress.hh:77-87). -/
noncomputable def s5 : List (Fin 3 × Fin 5 × ((Fin 2 → ℝ) → ℝ)) :=
  [(0, 0, fun _ => 1.0), (1, 1, fun _ => 1.0), (2, 2, fun _ => 1.0), (0, 3, fun p => coord (p 1)),
   (1, 4, fun p => coord (p 0))]

/-- `S18` (linearandpk2stress.hh:116-152). -/
noncomputable def s18 : List (Fin 6 × Fin 18 × ((Fin 3 → ℝ) → ℝ)) :=
  [(0, 0, fun _ => 1.0), (0, 1, fun p => coord (p 1)), (0, 2, fun p => coord (p 2)),
   (0, 3, fun p => coord (p 1) * coord (p 2)),
   (1, 4, fun _ => 1.0), (1, 5, fun p => coord (p 0)), (1, 6, fun p => coord (p 2)),
   (1, 7, fun p => coord (p 0) * coord (p 2)),
   (2, 8, fun _ => 1.0), (2, 9, fun p => coord (p 0)), (2, 10, fun p => coord (p 1)),
   (2, 11, fun p => coord (p 0) * coord (p 1)),
   (3, 12, fun _ => 1.0), (3, 13, fun p => coord (p 0)),
   (4, 14, fun _ => 1.0), (4, 15, fun p => coord (p 1)),
   (5, 16, fun _ => 1.0), (5, 17, fun p => coord (p 2))]

/-- `S24` (linearandpk2stress.hh:181-223). -/
noncomputable def s24 : List (Fin 6 × Fin 24 × ((Fin 3 → ℝ) → ℝ)) :=
  [(0, 0, fun _ => 1.0), (0, 1, fun p => coord (p 1)), (0, 2, fun p => coord (p 2)),
   (0, 3, fun p => coord (p 1) * coord (p 2)),
   (1, 4, fun _ => 1.0), (1, 5, fun p => coord (p 0)), (1, 6, fun p => coord (p 2)),
   (1, 7, fun p => coord (p 0) * coord (p 2)),
   (2, 8, fun _ => 1.0), (2, 9, fun p => coord (p 0)), (2, 10, fun p => coord (p 1)),
   (2, 11, fun p => coord (p 0) * coord (p 1)),
   (3, 12, fun _ => 1.0), (3, 13, fun p => coord (p 0)), (3, 14, fun p => coord (p 0) * coord (p 1)),
   (3, 15, fun p => coord (p 0) * coord (p 2)),
   (4, 16, fun _ => 1.0), (4, 17, fun p => coord (p 1)), (4, 18, fun p => coord (p 0) * coord (p 1)),
   (4, 19, fun p => coord (p 1) * coord (p 2)),
   (5, 20, fun _ => 1.0), (5, 21, fun p => coord (p 2)), (5, 22, fun p => coord (p 1) * coord (p 2)),
   (5, 23, fun p => coord (p 0) * coord (p 2))]

/-- `S30` (linearandpk2stress.hh:252-300). -/
noncomputable def s30 : List (Fin 6 × Fin 30 × ((Fin 3 → ℝ) → ℝ)) :=
  [(0, 0, fun _ => 1.0), (0, 1, fun p => coord (p 1)), (0, 2, fun p => coord (p 2)),
   (0, 3, fun p => coord (p 1) * coord (p 2)),
   (1, 4, fun _ => 1.0), (1, 5, fun p => coord (p 0)), (1, 6, fun p => coord (p 2)),
   (1, 7, fun p => coord (p 0) * coord (p 2)),
   (2, 8, fun _ => 1.0), (2, 9, fun p => coord (p 0)), (2, 10, fun p => coord (p 1)),
   (2, 11, fun p => coord (p 0) * coord (p 1)),
   (3, 12, fun _ => 1.0), (3, 13, fun p => coord (p 0)), (3, 14, fun p => coord (p 1)), (3, 15, fun p => coord (p 2)),
   (3, 16, fun p => coord (p 0) * coord (p 1)), (3, 17, fun p => coord (p 0) * coord (p 2)),
   (4, 18, fun _ => 1.0), (4, 19, fun p => coord (p 0)), (4, 20, fun p => coord (p 1)), (4, 21, fun p => coord (p 2)),
   (4, 22, fun p => coord (p 0) * coord (p 1)), (4, 23, fun p => coord (p 1) * coord (p 2)),
   (5, 24, fun _ => 1.0), (5, 25, fun p => coord (p 0)), (5, 26, fun p => coord (p 1)), (5, 27, fun p => coord (p 2)),
   (5, 28, fun p => coord (p 1) * coord (p 2)), (5, 29, fun p => coord (p 0) * coord (p 2))]

/-- `T0_` in two dimensions (linearandpk2stress.hh:20-26, 44-46). -/
noncomputable def T0plane (geo : Geometry 2) : Matrix (Fin 3) (Fin 3) ℝ :=
  (transformationMatrix2 (geo.jacobianTransposed center))ᵀ

/-- `T0_` in three dimensions (linearandpk2stress.hh:20-26, 44-46). -/
noncomputable def T0space (geo : Geometry 3) : Matrix (Fin 6) (Fin 6) ℝ :=
  (transformationMatrix3 (geo.jacobianTransposed center))ᵀ

/-- `operator()` of `S5` (linearandpk2stress.hh:77-89). -/
noncomputable def stressAnsatz2 (entries : List (Fin 3 × Fin m × ((Fin 2 → ℝ) → ℝ))) (geo : Geometry 2) (pos : Fin 2 → ℝ) :
    Matrix (Fin 3) (Fin m) ℝ := T0plane geo * assign entries pos

/-- `operator()` of `S18`, `S24` and `S30` (linearandpk2stress.hh:116-154, 181-225, 252-302). -/
noncomputable def stressAnsatz3 (entries : List (Fin 6 × Fin m × ((Fin 3 → ℝ) → ℝ))) (geo : Geometry 3) (pos : Fin 3 → ℝ) :
    Matrix (Fin 6) (Fin m) ℝ := T0space geo * assign entries pos

/-- `createAssumedStressType` (asvariants.hh:79-108): the number of parameters, `none` if it throws. -/
def createAssumedStressType (dim : Nat) (numberOfParameters : Int) : Option Nat :=
  if dim = 2 then if numberOfParameters = 5 then some 5 else none
  else if numberOfParameters = 18 then some 18
  else if numberOfParameters = 24 then some 24
  else if numberOfParameters = 30 then some 30
  else none

/-! ### The element -/

/-- An integration point: the strain of the underlying element with its derivatives and the modes `P`, that is
`asFunction(gp.position())`; `value` is `P * beta`, `firstDerivative` is `P` and `secondDerivative` is zero for both stress
functions (linearstress.hh:36-98, pk2stress.hh:38-102). -/
structure ASPoint (n d q m : Nat) where
  point : Point n d q
  P : Matrix (Fin q) (Fin m) ℝ

/-- `AssumedStressFunction::value` (linearstress.hh:36-41, pk2stress.hh:38-43). -/
def ASPoint.value (gp : ASPoint n d q m) (beta : Fin m → ℝ) : Fin q → ℝ := gp.P *ᵥ beta

/-- The members `beta_`, `strainStates_` and `invertedMaterialStates_` (assumedstress.hh:357-359) of an element with `g`
integration points. -/
structure State (q m g : Nat) where
  beta : Fin m → ℝ
  strainStates : Fin g → Fin q → ℝ
  inverted : Fin g → Matrix (Fin q) (Fin q) ℝ

/-- `materialInversion` of the material: stress and starting strain to compliance and strain. -/
abbrev Inversion (q : Nat) := (Fin q → ℝ) → (Fin q → ℝ) → Matrix (Fin q) (Fin q) ℝ × (Fin q → ℝ)

/-- `calculateMaterialInversion` (assumedstress.hh:443-455). -/
def calculateMaterialInversion (inv : Inversion q) (gps : Fin g → ASPoint n d q m) (st : State q m g) : State q m g where
  beta := st.beta
  strainStates i := (inv ((gps i).value st.beta) (st.strainStates i)).2
  inverted i := (inv ((gps i).value st.beta) (st.strainStates i)).1

/-- `initializeState` (assumedstress.hh:368-374); `resize` keeps the strains `old` of an earlier state and sets new ones
to zero. -/
def initializeState (inv : Inversion q) (gps : Fin g → ASPoint n d q m) (old : Fin g → Fin q → ℝ) : State q m g :=
  calculateMaterialInversion inv gps ⟨0, old, fun _ => 0⟩

/-- `asApplicabilityCheck` (assumedstress.hh:229-234), whether it passes. -/
def asApplicable (n d : Nat) : Bool := (n == 4 && d == 2) || (n == 8 && d == 3)

/-- `H` of `calculateHAndGMatrix` (assumedstress.hh:376-409). -/
def calculateH (gps : Fin g → ASPoint n d q m) (st : State q m g) : Matrix (Fin m) (Fin m) ℝ :=
  (List.finRange g).foldl (fun H i => H + ((gps i).point.detJ * (gps i).point.weight) •
    ((gps i).Pᵀ * st.inverted i * (gps i).P + 0)) 0

/-- `G` of `calculateHAndGMatrix` (assumedstress.hh:376-409), one block of columns for every node. -/
def calculateG (gps : Fin g → ASPoint n d q m) (u : NodeVec n d) : Fin n → Matrix (Fin m) (Fin d) ℝ :=
  (List.finRange g).foldl (fun G i =>
    (List.finRange n).foldl (fun G I => Function.update G I (G I +
      ((gps i).point.detJ * (gps i).point.weight) • ((gps i).Pᵀ * (gps i).point.bop u I))) G) 0

/-- `calculateRtilde` (assumedstress.hh:411-441). -/
def calculateRtilde (gps : Fin g → ASPoint n d q m) (st : State q m g) (u : NodeVec n d) : Fin m → ℝ :=
  (List.finRange g).foldl (fun R i => R + ((gps i).point.detJ * (gps i).point.weight) •
    ((gps i).Pᵀ *ᵥ ((gps i).point.strain u - st.strainStates i))) 0

/-- `updateStateImpl` (assumedstress.hh:205-227); `dx` is the part of the correction at the element. -/
noncomputable def updateState (inv : Inversion q) (gps : Fin g → ASPoint n d q m) (st : State q m g) (u : NodeVec n d)
    (solutionSize correctionSize : Nat) (dx : NodeVec n d) : Option (State q m g) :=
  if !asApplicable n d then none
  else if correctionSize ≠ solutionSize then none
  else
    let H := calculateH gps st
    let G := calculateG gps u
    let Rtilde := calculateRtilde gps st u
    some (calculateMaterialInversion inv gps { st with beta := st.beta + H⁻¹ *ᵥ (Rtilde + mulL G dx) })

/-- `K.triangularView<Upper>() += M` followed by `K.triangularView<StrictlyLower>() = K.transpose()`
(assumedstress.hh:268-269). -/
def addUpperAndMirror (K M : BlockMat n d) : BlockMat n d := fun I J => Matrix.of fun a b =>
  if J < I ∨ (I = J ∧ b < a) then K J I b a + M J I b a else K I J a b + M I J a b

/-- `calculateMatrixImpl` (assumedstress.hh:236-272). -/
noncomputable def calculateMatrix (gps : Fin g → ASPoint n d q m) (st : State q m g) (affordance : MatrixAffordance)
    (u : NodeVec n d) (K : BlockMat n d) : Option (BlockMat n d) :=
  if affordance ≠ .stiffness then none
  else if !asApplicable n d then none
  else
    let K := (List.finRange g).foldl (fun K i =>
      let S := (gps i).value st.beta
      (List.finRange n).foldl (fun K I =>
        (List.finRange n).foldl (fun K J =>
          addBlock K I J (((gps i).point.detJ * (gps i).point.weight) • (gps i).point.kg u S I J)) K) K) K
    let H := calculateH gps st
    let G := calculateG gps u
    some (addUpperAndMirror K fun I J => (G I)ᵀ * H⁻¹ * G J)

/-- `calculateVectorImpl` (assumedstress.hh:308-341). -/
noncomputable def calculateVector (gps : Fin g → ASPoint n d q m) (st : State q m g) (affordance : VectorAffordance)
    (u : NodeVec n d) (force : NodeVec n d) : Option (NodeVec n d) :=
  if affordance ≠ .forces then none
  else if !asApplicable n d then none
  else
    let force := (List.finRange g).foldl (fun force i =>
      let S := (gps i).value st.beta
      (List.finRange n).foldl (fun force I => addSegment force I
        (((gps i).point.detJ * (gps i).point.weight) • (((gps i).point.bop u I)ᵀ *ᵥ S))) force) force
    let H := calculateH gps st
    let G := calculateG gps u
    let Rtilde := calculateRtilde gps st u
    some (force + fun I => ((G I)ᵀ * H⁻¹) *ᵥ Rtilde)

/-- `calculateScalarImpl` (assumedstress.hh:274-306) for scalars that are not of the automatic differentiation; the affordance
is not looked at. -/
noncomputable def calculateScalar (gps : Fin g → ASPoint n d q m) (st : State q m g) (u : NodeVec n d) : Option ℝ :=
  if !asApplicable n d then none
  else some ((List.finRange g).foldl (fun energy i =>
    let S := (gps i).value st.beta
    energy + (S ⬝ᵥ (gps i).point.strain u - 0.5 * (S ⬝ᵥ st.strainStates i)) * (gps i).point.detJ * (gps i).point.weight) 0)

/-- The internal variables used for linear stresses (assumedstress.hh:141-148). -/
noncomputable def linearBeta (gps : Fin g → ASPoint n d q m) (st : State q m g) (u : NodeVec n d) : Fin m → ℝ :=
  (calculateH gps st)⁻¹ *ᵥ mulL (calculateG gps u) u

end Ikarus.Element.AssumedStress
