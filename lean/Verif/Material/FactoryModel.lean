import Verif.Material.HyperelasticModel

/-!
The functions that create hyperelastic materials, ikarus/finiteelements/mechanics/materials/hyperelastic/factory.hh.
Exceptions of constructors are `none`.
-/

namespace Ikarus.MaterialFactory

noncomputable section

/-- factory.hh:34-39 with the constructor interface.hh:73-76: without volumetric part the function `VF0`, whose parameter is
zero. -/
def makeBlatzKo (mu : ℝ) : Hyperelastic := ⟨blatzKo mu, ⟨0, .f0⟩⟩

/-- factory.hh:56-65 with deviatoric stretches. -/
def makeOgdenDev {n : Nat} (mu alpha : Fin n → ℝ) (K : ℝ) (vf : VF) : Hyperelastic := ⟨(Ogden.mk mu alpha).dev, ⟨K, vf⟩⟩

/-- factory.hh:56-65 with total stretches. -/
def makeOgdenTotal {n : Nat} (mu alpha : Fin n → ℝ) (K : ℝ) (vf : VF) : Hyperelastic := ⟨(Ogden.mk mu alpha).total, ⟨K, vf⟩⟩

/-- factory.hh:81-91; the number `epsInv` is the tolerance of invariantbased.hh:211. -/
def makeInvariantBased {n : Nat} (epsInv : ℝ) (mu : Fin n → ℝ) (pex qex : Fin n → ℕ) (K : ℝ) (vf : VF) : Option Hyperelastic := do
  let v ← InvariantBased.construct pex qex mu
  return ⟨v.dev epsInv, ⟨K, vf⟩⟩

/-- factory.hh:105-112. -/
def makeMooneyRivlin (epsInv : ℝ) (mu : Fin 2 → ℝ) (K : ℝ) (vf : VF) : Option Hyperelastic :=
  makeInvariantBased epsInv mu ![1, 0] ![0, 1] K vf

/-- factory.hh:126-133. -/
def makeYeoh (epsInv : ℝ) (mu : Fin 3 → ℝ) (K : ℝ) (vf : VF) : Option Hyperelastic :=
  makeInvariantBased epsInv mu ![1, 2, 3] ![0, 0, 0] K vf

/-- factory.hh:147-155. -/
def makeArrudaBoyce (b : ArrudaBoyce) (K : ℝ) (vf : VF) : Hyperelastic := ⟨b.dev, ⟨K, vf⟩⟩

/-- factory.hh:169-177; `epsJm` is the tolerance of gent.hh:175. -/
def makeGent (epsJm : ℝ) (g : Gent) (K : ℝ) (vf : VF) : Hyperelastic := ⟨g.dev epsJm, ⟨K, vf⟩⟩

/-- factory.hh:185-189. -/
def makePureVolumetric (vf : VF) (K : ℝ) : Hyperelastic := ⟨noDev, ⟨K, vf⟩⟩

end

end Ikarus.MaterialFactory
