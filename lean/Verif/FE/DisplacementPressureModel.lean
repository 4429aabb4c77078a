import Verif.FE.ElementModel

/-!
Model of ikarus/finiteelements/mechanics/displacementpressure.hh.  Numbers are real.

The element has displacement dofs, given node by node, and pressure dofs; vector and matrix are given by their
displacement and pressure parts.  In the code the parts are addressed as `I * myDim` and `pFE.localIndex(j)`; that these
indices do not overlap is a property of the composite basis of dune and is assumed here.  Strains come from
dune-localfefunctions and are data of the integration points, as for the nonlinear element.
-/

namespace Ikarus.Element.DisplacementPressure

open Matrix

variable {n m d q : Nat}

/-- `DPConstitutiveDriver` (displacementpressure.hh:48-101): the deviatoric and the volumetric material, the latter with
unit parameter (decomposehyperelastic.hh:55-56), and the volumetric parameter. -/
structure Driver (q : Nat) where
  dev : Law q
  vol : Law q
  kappa : ℝ

namespace Driver

/-- `Uhat` (displacementpressure.hh:53). -/
def Uhat (c : Driver q) (E : Fin q → ℝ) : ℝ := c.vol.energy E

/-- `storedEnergy` (displacementpressure.hh:55-59). -/
noncomputable def storedEnergy (c : Driver q) (E : Fin q → ℝ) (p : ℝ) : ℝ :=
  let Wdev := c.dev.energy E
  let uhat := c.Uhat E
  Wdev + p * uhat - (1.0 / (2.0 * c.kappa)) * p ^ 2

/-- `dUdE` of `firstDerivatives` (displacementpressure.hh:63). -/
def dUdE (c : Driver q) (E : Fin q → ℝ) : Fin q → ℝ := c.vol.stress E

/-- `S` of `firstDerivatives` (displacementpressure.hh:62-64). -/
def S (c : Driver q) (E : Fin q → ℝ) (p : ℝ) : Fin q → ℝ := c.dev.stress E + p • c.vol.stress E

/-- `secondDerivative` (displacementpressure.hh:68-73). -/
def secondDerivative (c : Driver q) (E : Fin q → ℝ) (p : ℝ) : Matrix (Fin q) (Fin q) ℝ :=
  c.dev.tangent E + p • c.vol.tangent E

end Driver

/-- An integration point: as for the nonlinear element, with the values `Np` of the pressure shape functions
(displacementpressure.hh:478-482). -/
structure DPPoint (n m d q : Nat) extends Point n d q where
  Np : Fin m → ℝ

/-- `pFunction.evaluate(gpIndex)` (displacementpressure.hh:442, 480, 562). -/
def DPPoint.pressure (gp : DPPoint n m d q) (p : Fin m → ℝ) : ℝ := ∑ j, gp.Np j * p j

/-- The element vector. -/
structure Vec (n m d : Nat) where
  u : NodeVec n d
  p : Fin m → ℝ

/-- The element matrix. -/
structure Mat (n m d : Nat) where
  uu : BlockMat n d
  up : Fin n → Fin m → Fin d → ℝ
  pu : Fin m → Fin n → Fin d → ℝ
  pp : Fin m → Fin m → ℝ

/-- `+=` on one entry or block. -/
def addAt {r c : Nat} {V : Type} [Add V] (K : Fin r → Fin c → V) (i : Fin r) (j : Fin c) (v : V) : Fin r → Fin c → V :=
  Function.update K i (Function.update (K i) j (K i j + v))

/-- `calculateScalarImpl` and `energyFunction` (displacementpressure.hh:433-449, 530-539). -/
noncomputable def calculateScalar (c : Driver q) (gps : List (DPPoint n m d q)) (u : NodeVec n d) (p : Fin m → ℝ) : ℝ :=
  gps.foldl (fun energy gp => energy + c.storedEnergy (gp.strain u) (gp.pressure p) * gp.detJ * gp.weight) 0

/-- `calculateVectorImpl` (displacementpressure.hh:541-581). -/
noncomputable def calculateVector (c : Driver q) (gps : List (DPPoint n m d q)) (u : NodeVec n d) (p : Fin m → ℝ)
    (force : Vec n m d) : Vec n m d :=
  gps.foldl (fun force gp =>
    let E := gp.strain u
    let ph := gp.pressure p
    let S := c.S E ph
    let Uhat := c.Uhat E
    let fu := (List.finRange n).foldl (fun f i =>
      addSegment f i ((gp.detJ * gp.weight) • ((gp.bop u i)ᵀ *ᵥ S))) force.u
    let fp := (List.finRange m).foldl (fun f i =>
      let pTerm := gp.Np i * (Uhat - ph / c.kappa)
      Function.update f i (f i + pTerm * gp.detJ * gp.weight)) force.p
    ⟨fu, fp⟩) force

/-- `calculateMatrixImpl` (displacementpressure.hh:459-528). -/
noncomputable def calculateMatrix (c : Driver q) (gps : List (DPPoint n m d q)) (u : NodeVec n d) (p : Fin m → ℝ)
    (K : Mat n m d) : Mat n m d :=
  gps.foldl (fun K gp =>
    let E := gp.strain u
    let ph := gp.pressure p
    let intElement := gp.detJ * gp.weight
    let dUdE := c.dUdE E
    let S := c.S E ph
    let C := c.secondDerivative E ph
    let uu := (List.finRange n).foldl (fun K i => (List.finRange n).foldl (fun K j =>
      let K := addBlock K i j (intElement • ((gp.bop u i)ᵀ * C * gp.bop u j))
      addBlock K i j (intElement • gp.kg u S i j)) K) K.uu
    let up := (List.finRange n).foldl (fun K i => (List.finRange m).foldl (fun K j =>
      addAt K i j (intElement • (gp.Np j • ((gp.bop u i)ᵀ *ᵥ dUdE)))) K) K.up
    let pu := (List.finRange m).foldl (fun K i => (List.finRange n).foldl (fun K j =>
      addAt K i j (intElement • (gp.Np i • ((gp.bop u j)ᵀ *ᵥ dUdE)))) K) K.pu
    let pp := (List.finRange m).foldl (fun K i => (List.finRange m).foldl (fun K j =>
      addAt K i j (-(gp.Np i * (1.0 / c.kappa) * gp.Np j * intElement))) K) K.pp
    ⟨uu, up, pu, pp⟩) K

end Ikarus.Element.DisplacementPressure
