import Verif.Analysis.SmoothSkillProps
import Verif.FE.EASGaussProps
import Verif.FE.AssumedStressStabilityProps

/-!
C104: cases of the theorems of `PatchProps.lean` and of the patch test of assumed stresses, on a trapezoid with the default rule.
-/

namespace Ikarus.Element

open Matrix Element.Spec

/-- The corners of a trapezoid. -/
def trapezoidCorners : NodeVec 4 2 := ![![0, 0], ![2, 0], ![0, 1], ![1, 1]]

/-- The default rule of the four node element. -/
noncomputable def trapezoidRule : List ((Fin 2 → ℝ) × ℝ) := EAS.Spec.pairs (EAS.Spec.power EAS.Spec.gauss2 2)

theorem trapezoid_det : ∀ g ∈ trapezoidRule, 0 < ((quadGeometry trapezoidCorners).jacobianTransposed g.1).det := by
  intro g hg
  obtain ⟨o, ho, h⟩ := EAS.power_position _ _ g hg 1
  have h1 := (EAS.gauss2_unit o ho).2
  rw [← h] at h1
  have h2 : ((quadGeometry trapezoidCorners).jacobianTransposed g.1).det = 2 - g.1 1 := by
    simp [Matrix.det_fin_two, quadGeometry, Fin.sum_univ_four, Spec.bilinear, trapezoidCorners]
    ring
  rw [h2]
  linarith

theorem trapezoid_isoparametric : ∀ p ∈ trapezoidRule.map (quadPoint trapezoidCorners), Isoparametric trapezoidCorners p.dN := by
  intro p hp
  obtain ⟨g, hg, rfl⟩ := List.mem_map.1 hp
  exact quadPoint_isoparametric _ g (trapezoid_det g hg).ne'

theorem trapezoid_exact : EAS.Spec.Exact trapezoidRule 1 := EAS.exact_mono (EAS.gauss_exact 2).1.1 (by norm_num)

/-- Displacements and pressure, here with two pressure functions. -/
example (c : DisplacementPressure.Driver 3) (hk : c.kappa = 5) (f : DisplacementPressure.Vec 4 2 2) (G : Matrix (Fin 2) (Fin 2) ℝ) :=
  displacementPressure_patch EAS.plane EAS.plane_isVoigt c (by rw [hk]; norm_num) _
    (fun p => ⟨Ikarus.Spec.greenPoint EAS.plane p, ![p.pos 0, 1 - p.pos 0]⟩) (fun p _ => greenPoint_solid _ _)
    (fun p _ => by simp) _ f trapezoid_isoparametric ![1, 2] G

/-- The transposed enhanced displacement gradient. -/
example (law : Law 3) (f : NodeVec 4 2) (G : Matrix (Fin 2) (Fin 2) ℝ) :=
  transposed_patch EAS.plane EAS.plane_isVoigt EAS.val2 law (EAS.ansatzH EAS.h4 (quadGeometry trapezoidCorners))
    (trapezoidRule.map (quadPoint trapezoidCorners)) (quadPoint trapezoidCorners (EAS.center, 1)).dN
    (quad_meanFree trapezoidCorners trapezoid_exact trapezoid_det).2.2.2.1 trapezoidCorners f trapezoid_isoparametric
    (quadPoint_isoparametric _ _ (by
      simp [Matrix.det_fin_two, quadGeometry, Fin.sum_univ_four, Spec.bilinear, trapezoidCorners, EAS.center]
      norm_num)) (by decide) ![1, 2] G

/-- Assumed stresses with a law that has stresses equal to strains. -/
example (f : NodeVec 4 2) (G : Matrix (Fin 2) (Fin 2) ℝ) :=
  assumedStress_patch (g := trapezoidRule.length) (m := 3) EAS.plane EAS.plane_isVoigt (EAS.plane.greenLagrange G)
    (fun i => quadPoint trapezoidCorners (trapezoidRule.get i))
    (fun i => ⟨Ikarus.Spec.greenPoint EAS.plane (quadPoint trapezoidCorners (trapezoidRule.get i)), 1⟩) (fun _ => greenPoint_solid _ _)
    trapezoidCorners f (fun i => quadPoint_isoparametric _ _ (trapezoid_det _ (List.get_mem _ _)).ne') (by decide) ![1, 2] G
    ⟨EAS.plane.greenLagrange G, fun _ => EAS.plane.greenLagrange G, fun _ => 1⟩ (fun _ => by simp) fun _ => rfl

end Ikarus.Element
