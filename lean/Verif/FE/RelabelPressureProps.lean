import Verif.FE.RelabelEASProps

/-!
C124, displacements and pressure: mixed elements whose nodes and pressure functions are listed in another order.
-/

namespace Ikarus.Element.DisplacementPressure

open Matrix Element.Spec

variable {n m d q : Nat} {τ : Equiv.Perm (Fin n)} {ρ : Equiv.Perm (Fin m)}

/-! ### Specification -/

/-- Vector and matrix with the nodes in the order `τ` and the pressures in the order `ρ`. -/
def Spec.relabelVec (τ : Equiv.Perm (Fin n)) (ρ : Equiv.Perm (Fin m)) (f : Vec n m d) : Vec n m d := ⟨relabel τ f.u, f.p ∘ ρ⟩

def Spec.relabelMixed (τ : Equiv.Perm (Fin n)) (ρ : Equiv.Perm (Fin m)) (K : Mat n m d) : Mat n m d :=
  ⟨relabelMat τ K.uu, fun I j => K.up (τ I) (ρ j), fun j I => K.pu (ρ j) (τ I), fun i j => K.pp (ρ i) (ρ j)⟩

/-- An integration point at the same place, in the new order. -/
structure Spec.RelabelledDP (τ : Equiv.Perm (Fin n)) (ρ : Equiv.Perm (Fin m)) (p p' : DPPoint n m d q) : Prop where
  point : RelabelledPoint τ p.toPoint p'.toPoint
  Np : ∀ j, p'.Np j = p.Np (ρ j)

/-- C124, displacements and pressure. A mixed element whose nodes, pressure functions and integration points are listed in another order has the
same energy and adds the same vector and the same matrix, in the new order, for all materials. -/
theorem displacementPressure_relabel (c : Driver q) (u : NodeVec n d) (p : Fin m → ℝ) {gps gps' : List (DPPoint n m d q)}
    (h : SamePoints (Spec.RelabelledDP τ ρ) gps gps') :
    calculateScalar c gps' (relabel τ u) (p ∘ ρ) = calculateScalar c gps u p ∧
    (∀ f, calculateVector c gps' (relabel τ u) (p ∘ ρ) (Spec.relabelVec τ ρ f) = Spec.relabelVec τ ρ (calculateVector c gps u p f)) ∧
    (∀ K, calculateMatrix c gps' (relabel τ u) (p ∘ ρ) (Spec.relabelMixed τ ρ K) =
      Spec.relabelMixed τ ρ (calculateMatrix c gps u p K)) := by
  have hp : ∀ {x y : DPPoint n m d q}, Spec.RelabelledDP τ ρ x y → y.pressure (p ∘ ρ) = x.pressure p := fun {x y} hxy => by
    unfold DPPoint.pressure
    simp only [hxy.Np, Function.comp_apply]
    exact Equiv.sum_comp ρ fun j => x.Np j * p j
  refine ⟨?_, fun f => ?_, fun K => ?_⟩
  · rw [calculateScalar_sum, calculateScalar_sum]
    refine samePoints_scalar h _ _ fun x y hxy => ?_
    rw [hxy.point.detJ, hxy.point.weight, hp hxy, hxy.point.strain]
  · rw [calculateVector_sum, calculateVector_sum]
    unfold Spec.relabelVec
    congr 1
    · rw [relabel_add]
      congr 1
      refine samePoints_sum h _ _ (relabel τ) relabel_zero relabel_add fun x y hxy => ?_
      rw [hp hxy]
      exact Element.pointForce_relabel _ hxy.point u
    · have e := samePoints_sum h _ _ (fun v : Fin m → ℝ => v ∘ ρ) rfl (fun _ _ => rfl)
        (fun x y hxy => show (fun i => y.Np i * (c.vol.energy (y.strain (relabel τ u)) - y.pressure (p ∘ ρ) / c.kappa) * y.detJ * y.weight) =
          (fun i => x.Np i * (c.vol.energy (x.strain u) - x.pressure p / c.kappa) * x.detJ * x.weight) ∘ ρ by
            funext i
            show _ = x.Np (ρ i) * _ * _ * _
            rw [hxy.Np, hp hxy, hxy.point.detJ, hxy.point.weight, hxy.point.strain])
      exact congrArg (fun v => f.p ∘ ρ + v) e
  · rw [calculateMatrix_sum, calculateMatrix_sum]
    unfold Spec.relabelMixed
    congr 1
    · rw [relabelMat_add]
      congr 1
      refine samePoints_sum h _ _ (relabelMat τ) relabelMat_zero relabelMat_add fun x y hxy => ?_
      rw [hp hxy]
      exact Element.pointMatrix_relabel _ hxy.point u
    · have e := samePoints_sum h (upMat c u) (upMat c (relabel τ u)) (fun (M : Fin n → Fin m → Fin d → ℝ) I j => M (τ I) (ρ j)) rfl
        (fun _ _ => rfl) fun x y hxy => by
          funext I j
          show (y.detJ * y.weight) • (y.Np j • ((y.bop (relabel τ u) I)ᵀ *ᵥ c.vol.stress (y.strain (relabel τ u)))) =
            (x.detJ * x.weight) • (x.Np (ρ j) • ((x.bop u (τ I))ᵀ *ᵥ c.vol.stress (x.strain u)))
          rw [hxy.point.detJ, hxy.point.weight, hxy.Np, hxy.point.bop, hxy.point.strain]
      rw [e]
      rfl
    · have e := samePoints_sum h (puMat c u) (puMat c (relabel τ u)) (fun (M : Fin m → Fin n → Fin d → ℝ) j I => M (ρ j) (τ I)) rfl
        (fun _ _ => rfl) fun x y hxy => by
          funext j I
          show (y.detJ * y.weight) • (y.Np j • ((y.bop (relabel τ u) I)ᵀ *ᵥ c.vol.stress (y.strain (relabel τ u)))) =
            (x.detJ * x.weight) • (x.Np (ρ j) • ((x.bop u (τ I))ᵀ *ᵥ c.vol.stress (x.strain u)))
          rw [hxy.point.detJ, hxy.point.weight, hxy.Np, hxy.point.bop, hxy.point.strain]
      rw [e]
      rfl
    · have e := samePoints_sum h (fun x : DPPoint n m d q => fun i j => -(x.Np i * (1.0 / c.kappa) * x.Np j * (x.detJ * x.weight)))
        (fun x : DPPoint n m d q => fun i j => -(x.Np i * (1.0 / c.kappa) * x.Np j * (x.detJ * x.weight)))
        (fun (M : Fin m → Fin m → ℝ) i j => M (ρ i) (ρ j)) rfl (fun _ _ => rfl) fun x y hxy => by
          funext i j
          beta_reduce
          rw [hxy.Np, hxy.Np, hxy.point.detJ, hxy.point.weight]
      exact congrArg (fun v : Fin m → Fin m → ℝ => (fun i j => K.pp (ρ i) (ρ j)) + v) e

/-! ### Example -/

/-- A quadrilateral of any shape with one pressure, with its corners listed from another corner. -/
example (X : NodeVec 4 2) (a : ℝ) {φ : (Fin 2 → ℝ) → Fin 2 → ℝ} {P : Matrix (Fin 2) (Fin 2) ℝ} {τ : Equiv.Perm (Fin 4)}
    (h : SquareSymmetry τ φ P) (hr : ((tensorRule [(a, 1 / 2), (1 - a, 1 / 2)]).map fun g => (φ g.1, g.2)).Perm
      (tensorRule [(a, 1 / 2), (1 - a, 1 / 2)])) (c : Driver 3) (u : NodeVec 4 2) (p : Fin 1 → ℝ) :=
  let F (X : NodeVec 4 2) (g : (Fin 2 → ℝ) × ℝ) : DPPoint 4 1 2 3 := ⟨Ikarus.Spec.greenPoint EAS.plane (quadPoint X g), fun _ => 1⟩
  displacementPressure_relabel (ρ := 1) c u p (EAS.rule_points (F := F X) (F' := F (relabel τ X))
    (fun g => ⟨green_relabel EAS.plane (quad_relabel h X g), fun _ => rfl⟩) hr)

end Ikarus.Element.DisplacementPressure
