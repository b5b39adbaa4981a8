import Verif.Props.Body
import Verif.Props.Optim2
import Verif.Props.Shapes2

/-!
# Where the literal statements of C30 and C69 stop

* C30 compares `must_contain` with `contains`; for cylinders `contains` has a built-in tolerance, so only one direction
  holds exactly.
* C69 says that `mbes` makes every shape larger; for capsules it inherits the defect of `mbe_of_ellipsoids` (C47).
-/

namespace Rigeo

open Matrix

section Field
variable {K : Type} [Field K] [LinearOrder K] [IsStrictOrderedRing K]

/-- C30: `Cylinder.must_contain(q, scale=s)` implies `contains(q / s)`; the other way round only up to the built-in
tolerance of `Cylinder.contains`. -/
theorem C30_cylinder_contains (c : Cylinder K) (hR : Spec.Orthogonal c.rotation) (hL : Spec.Resolved (c.length / 2))
    (hr : Spec.Resolved c.radius) (q : Fin 3 → K) (s : K) (hs : 0 < s) (tol : K) :
    (c.mustContain q s → c.contains (s⁻¹ • q) tol = true) ∧
    (c.contains (s⁻¹ • q) tol = true →
      (⟨c.length * (1 + 1 / 100000000) + 2 / 100000000, c.radius * (1 + 1 / 100000000) + 2 / 100000000,
        c.rotation, c.center⟩ : Cylinder K).mustContain q s) := by
  have hL0 : 0 ≤ c.length := by
    have := hL.nonneg
    linarith
  have hr0 : 0 ≤ c.radius := hr.nonneg
  constructor
  · intro h
    have h1 := (C30_cylinder c hR hL0 hr0 q s hs).1 h
    exact C31_complete c hR hL hr _ tol h1
  · intro h
    have h1 := C31_sound c hR hL hr _ tol h
    have h2 : 0 ≤ c.length * (1 + 1 / 100000000) + 2 / 100000000 := by positivity
    have h3 : 0 ≤ c.radius * (1 + 1 / 100000000) + 2 / 100000000 := by positivity
    generalize c.length * (1 + 1 / 100000000) + 2 / 100000000 = L at h1 h2 ⊢
    generalize c.radius * (1 + 1 / 100000000) + 2 / 100000000 = r at h1 h3 ⊢
    exact (C30_cylinder ⟨L, r, c.rotation, c.center⟩ hR h2 h3 q s hs).2 h1

/-- C30: the two tests do differ: at distance `1e-9` outside the unit cylinder `contains` is true and `must_contain`
is not satisfiable. -/
theorem C30_cylinder_gap : ∃ (c : Cylinder K) (q : Fin 3 → K), Spec.Orthogonal c.rotation ∧ 0 < c.length ∧ 0 < c.radius ∧
    (∀ tol, c.contains q tol = true) ∧ ¬ c.mustContain q 1 := by
  have hres : ∀ x : K, 1 ≤ x → Spec.Resolved x := fun x hx => Or.inr (lt_of_lt_of_le (by norm_num) hx)
  refine ⟨⟨2, 1, 1, 0⟩, ![1 + 1 / 1000000000, 0, 0], by simp [Spec.Orthogonal], by norm_num, by norm_num, fun tol => ?_, fun h => ?_⟩
  · rw [C31_contains _ (hres _ (by norm_num)) (hres _ le_rfl) _ _ rfl]
    simp
    norm_num
  · obtain ⟨y, -, h2, h3⟩ := (C30_cylinder _ (by simp [Spec.Orthogonal]) (by norm_num) zero_le_one _ _ one_pos).1 h
    simp only [inv_one, one_smul, Spec.rigid, one_mulVec, add_zero] at h3
    subst h3
    simp at h2
    norm_num at h2

end Field

/-- C69: for a capsule `mbes` can return a smaller shape. A capsule of length zero and radius `r > 1` around the origin
is replaced by the ball of radius `√r`, whatever optimal answer the solver gives. -/
theorem C69_mbes_capsule (eigh : Eigh) (heigh : Spec.IsEigh eigh) (lstsq : Lstsq) (orth : Orth) (ns : NullSpace)
    (solver : (n : ℕ) → List (Fin n → ℝ) → Bool → MbeVars n)
    (solver' : List (Matrix (Fin 3) (Fin 3) ℝ × (Fin 3 → ℝ)) → Bool → MbeeVars 3) (sphere : Bool) (r : ℝ) (hr : 1 < r)
    (hr' : r < 100000000 ^ 2) (Es : List (Matrix (Fin 3) (Fin 3) ℝ × (Fin 3 → ℝ)))
    (hEs : Es = [((1 / r) • 1, 0), ((1 / r) • 1, 0)]) (hsol : mbeeFeasible Es sphere (solver' Es sphere))
    (hopt : ∀ y, mbeeFeasible Es sphere y → y.S.det ≤ (solver' Es sphere).S.det) (R : Matrix (Fin 3) (Fin 3) ℝ)
    (params : IP ℝ) :
    ∃ e : Ellipsoid ℝ 3,
      (⟨[.capsule ⟨⟨0, r, R, 0⟩⟩], params⟩ : RigidBody ℝ).mbes eigh lstsq orth ns solver solver' sphere =
        .ok ⟨[.numeric e], params⟩ ∧
      Spec.capsule 0 r R 0 = Spec.ball r 0 ∧
      Spec.ellipsoid e.halfExtents e.rotation e.center = Spec.ball (Real.sqrt r) 0 ∧
      Spec.ellipsoid e.halfExtents e.rotation e.center ⊂ Spec.capsule 0 r R 0 := by
  have hr0 : 0 < r := by linarith
  have hz : (0 : Fin 3 → ℝ) = -((1 / r) • 0) := by simp
  -- the answer also is an optimal answer for a single ball
  set x := solver' Es sphere with hx
  have hfs : ∀ y : MbeeVars 3, mbeeFeasible [((1 / r) • 1, -((1 / r) • 0))] sphere y →
      mbeeFeasible Es sphere ⟨y.S, y.d, y.ts ++ y.ts⟩ := by
    rintro ⟨S, d, ts⟩ ⟨h1, h2, h3, h4, h5, h6⟩
    obtain ⟨t, rfl⟩ : ∃ t, ts = [t] := List.length_eq_one_iff.mp h3
    rw [hEs, hz]
    refine ⟨h1, h2, rfl, by simpa using h4, fun Et hEt => ?_, h6⟩
    exact h5 Et (by simpa using hEt)
  obtain ⟨t, u, htu⟩ : ∃ t u, x.ts = [t, u] := List.length_eq_two.mp (by rw [hsol.2.2.1, hEs]; rfl)
  have hx1 : mbeeFeasible [((1 / r) • 1, -((1 / r) • 0))] sphere ⟨x.S, x.d, [t]⟩ := by
    obtain ⟨h1, h2, -, h4, h5, h6⟩ := hsol
    rw [htu] at h4 h5
    rw [hEs] at h5
    refine ⟨h1, h2, rfl, by simpa using h4 t (by simp), fun Et hEt => ?_, h6⟩
    rw [← hz] at hEt
    simp only [List.zip_cons_cons, List.zip_nil_right, List.mem_singleton] at hEt
    exact h5 Et (by simp [hEt])
  obtain ⟨e, he, hset, hsub, -⟩ := C47_sphere eigh heigh (n := 2) (fun _ _ => ⟨x.S, x.d, [t]⟩) r
    (by linarith) hr' sphere hx1 fun y hy => hopt ⟨y.S, y.d, y.ts ++ y.ts⟩ (hfs y hy)
  have hcap : Spec.capsule 0 r R 0 = Spec.ball r 0 := by
    ext p
    constructor
    · rintro ⟨z, hz, hp⟩
      have hz0 : z = 0 := by simpa using hz
      rw [hz0] at hp
      have : (![0, 0, 0] : Fin 3 → ℝ) = 0 := by ext i; fin_cases i <;> rfl
      simpa [Spec.rigid, this] using hp
    · intro hp
      refine ⟨0, by simp, ?_⟩
      have : (![0, 0, 0] : Fin 3 → ℝ) = 0 := by ext i; fin_cases i <;> rfl
      simpa [Spec.rigid, this] using hp
  refine ⟨e, ?_, hcap, hset, ?_⟩
  · have h1 := he
    unfold mbeOfEllipsoids at h1
    have hA1 := mapM_spheres (n := 3) [(r, 0)] (by simp; linarith)
    have hA2 := mapM_spheres (n := 3) [(r, 0), (r, 0)] (by simp; linarith)
    simp only [List.map_cons, List.map_nil] at hA1 hA2
    rw [if_neg (by simp), hA1] at h1
    simp only [bind, Except.bind] at h1
    have h2 : (⟨⟨0, r, R, 0⟩⟩ : Capsule ℝ).mbe eigh solver' sphere = .ok e := by
      unfold Capsule.mbe
      rw [Capsule.caps_ok _ hr0.le]
      have : (![0, 0, 0] : Fin 3 → ℝ) = 0 := by ext i; fin_cases i <;> rfl
      simp only [bind, Except.bind, zero_div, neg_zero, Spec.rigid, this, mulVec_zero, add_zero]
      unfold mbeOfEllipsoids
      rw [if_neg (by simp), hA2]
      simp only [bind, Except.bind]
      rw [← hz, ← hEs]
      exact h1
    unfold RigidBody.mbes
    simp [AnyShape.mbe, h2, bind, Except.bind, pure, Except.pure, Except.map]
  · rw [hcap]
    refine ⟨?_, hsub hr⟩
    rw [hset]
    intro p hp
    have hp' : (p - 0) ⬝ᵥ (p - 0) ≤ Real.sqrt r ^ 2 := hp
    show (p - 0) ⬝ᵥ (p - 0) ≤ r ^ 2
    rw [Real.sq_sqrt hr0.le] at hp'
    nlinarith

/-- Optimal answers for `C69_mbes_capsule` exist. -/
example (r : ℝ) (hr : 1 < r) (sphere : Bool) : ∃ x : MbeeVars 3,
    mbeeFeasible [((1 / r) • 1, 0), ((1 / r) • 1, 0)] sphere x ∧
    ∀ y : MbeeVars 3, mbeeFeasible [((1 / r) • 1, 0), ((1 / r) • 1, 0)] sphere y → y.S.det ≤ x.S.det := by
  have hz : (0 : Fin 3 → ℝ) = -((1 / r) • 0) := by simp
  obtain ⟨x, hx, hopt⟩ := mbee_sphere_exists (n := 3) (r := r) (by linarith) sphere
  refine ⟨⟨x.S, x.d, x.ts ++ x.ts⟩, ?_, ?_⟩
  · obtain ⟨S, d, ts⟩ := x
    obtain ⟨h1, h2, h3, h4, h5, h6⟩ := hx
    obtain ⟨t, rfl⟩ : ∃ t, ts = [t] := List.length_eq_one_iff.mp h3
    rw [hz]
    exact ⟨h1, h2, rfl, by simpa using h4, fun Et hEt => h5 Et (by simpa using hEt), h6⟩
  · rintro ⟨S, d, ts⟩ ⟨h1, h2, h3, h4, h5, h6⟩
    obtain ⟨t, u, rfl⟩ : ∃ t u, ts = [t, u] := List.length_eq_two.mp h3
    refine hopt ⟨S, d, [t]⟩ ⟨h1, h2, rfl, by simpa using h4 t (by simp), fun Et hEt => h5 Et ?_, h6⟩
    rw [← hz] at hEt
    simp only [List.zip_cons_cons, List.zip_nil_right, List.mem_singleton] at hEt
    simp [hEt]

end Rigeo
