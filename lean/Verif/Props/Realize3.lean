import Verif.Props.Realize2

/-!
# Properties of the cylinder's vertex constraints (C55) and of `eps` (C72)
-/

namespace Rigeo

open Matrix

section Field
variable {K : Type} [Field K] [LinearOrder K] [IsStrictOrderedRing K] {n : ℕ}

theorem _root_.Spec.Realizable.zero (S : Set (Fin n → K)) : Spec.Realizable S 0 0 0 :=
  ⟨[], by simp [Spec.PointMasses.Nonneg], by simp [Spec.PointMasses.Within],
    by simp [Spec.PointMasses.mass], by simp [Spec.PointMasses.first], by simp [Spec.PointMasses.second]⟩

theorem _root_.Spec.Realizable.point {S : Set (Fin n → K)} {a : K} {p : Fin n → K} (ha : 0 ≤ a) (hp : p ∈ S) :
    Spec.Realizable S a (a • p) (a • outer p p) :=
  ⟨[(a, p)], by simp [Spec.PointMasses.Nonneg, ha], by simp [Spec.PointMasses.Within, hp],
    by simp [Spec.PointMasses.mass], by simp [Spec.PointMasses.first],
    by simp [Spec.PointMasses.second, outer_eq_vecMulVec]⟩

theorem _root_.Spec.Realizable.add {S : Set (Fin n → K)} {m m' : K} {f f' : Fin n → K}
    {H H' : Matrix (Fin n) (Fin n) K} (h : Spec.Realizable S m f H) (h' : Spec.Realizable S m' f' H') :
    Spec.Realizable S (m + m') (f + f') (H + H') := by
  obtain ⟨s, h1, h2, rfl, rfl, rfl⟩ := h
  obtain ⟨s', h1', h2', rfl, rfl, rfl⟩ := h'
  refine ⟨s ++ s', ?_, ?_, ?_, ?_, ?_⟩
  · intro mp hmp
    rcases List.mem_append.mp hmp with h | h
    exacts [h1 mp h, h1' mp h]
  · intro mp hmp
    rcases List.mem_append.mp hmp with h | h
    exacts [h2 mp h, h2' mp h]
  · simp [Spec.PointMasses.mass]
  · simp [Spec.PointMasses.first]
  · simp [Spec.PointMasses.second]

theorem _root_.Spec.Realizable.mono {S S' : Set (Fin n → K)} {m : K} {f : Fin n → K}
    {H : Matrix (Fin n) (Fin n) K} (h : Spec.Realizable S m f H) (hS : S ⊆ S') : Spec.Realizable S' m f H := by
  obtain ⟨s, h1, h2, h3⟩ := h
  exact ⟨s, h1, fun mp hmp => hS (h2 mp hmp), h3⟩

theorem _root_.Spec.Realizable.mass_nonneg {S : Set (Fin n → K)} {m : K} {f : Fin n → K}
    {H : Matrix (Fin n) (Fin n) K} (h : Spec.Realizable S m f H) : 0 ≤ m :=
  Spec.Realizable.induct (P := fun m _ _ => 0 ≤ m) le_rfl (fun _ _ _ _ _ _ => add_nonneg) (fun _ _ h _ => h) h

/-- The centre of mass of a body in a convex set lies in the set. -/
theorem _root_.Spec.Realizable.com {S : Set (Fin n → K)} (hS : Convex K S) {m : K} {f : Fin n → K}
    {H : Matrix (Fin n) (Fin n) K} (h : Spec.Realizable S m f H) (hm : 0 < m) : m⁻¹ • f ∈ S := by
  have key : 0 ≤ m ∧ (m = 0 → f = 0) ∧ (0 < m → m⁻¹ • f ∈ S) := by
    refine Spec.Realizable.induct
      (P := fun m f _ => 0 ≤ m ∧ (m = 0 → f = 0) ∧ (0 < m → m⁻¹ • f ∈ S)) ?_ ?_ ?_ h
    · simp
    · rintro m f _ m' f' _ ⟨h1, h2, h3⟩ ⟨h1', h2', h3'⟩
      refine ⟨add_nonneg h1 h1', fun h0 => ?_, fun hp => ?_⟩
      · rw [h2 (by linarith), h2' (by linarith), add_zero]
      · rcases h1.eq_or_lt with e | e
        · rw [h2 e.symm, ← e, zero_add, zero_add]
          exact h3' (by linarith)
        rcases h1'.eq_or_lt with e' | e'
        · rw [h2' e'.symm, ← e', add_zero, add_zero]
          exact h3 e
        have := hS (h3 e) (h3' e') (a := m / (m + m')) (b := m' / (m + m')) (by positivity) (by positivity)
          (by field_simp)
        convert this using 1
        rw [smul_smul, smul_smul, smul_add]
        congr 2 <;> field_simp
    · intro a p ha hp
      refine ⟨ha, fun h0 => by rw [h0, zero_smul], fun h0 => ?_⟩
      rwa [smul_smul, inv_mul_cancel₀ h0.ne', one_smul]
  exact key.2.2 hm

end Field

/-- The moments stored in a `(4, 4)` matrix are realizable on `S`. -/
def RealJ (S : Set (Fin 3 → ℝ)) (J : Matrix (Fin 4) (Fin 4) ℝ) : Prop :=
  Spec.Realizable S (J 3 3) (fun i => J i.castSucc 3) (Matrix.of fun i j => J i.castSucc j.castSucc)

theorem RealJ.zero (S : Set (Fin 3 → ℝ)) : RealJ S 0 := by
  have := Spec.Realizable.zero (K := ℝ) S
  exact this

theorem RealJ.add {S : Set (Fin 3 → ℝ)} {J J' : Matrix (Fin 4) (Fin 4) ℝ} (h : RealJ S J) (h' : RealJ S J') :
    RealJ S (J + J') := by
  have := Spec.Realizable.add h h'
  exact this

theorem RealJ.point {S : Set (Fin 3 → ℝ)} {a : ℝ} {p : Fin 3 → ℝ} (ha : 0 ≤ a) (hp : p ∈ S) :
    RealJ S (a • outer (IP.hom p) (IP.hom p)) := by
  have := Spec.Realizable.point ha hp
  unfold RealJ
  convert this using 1
  · change a * (1 * 1) = a; ring
  · ext i
    change a * (IP.hom p i.castSucc * 1) = a * p i
    simp [IP.hom]
  · ext i j
    simp [IP.hom, outer_apply]

/-- The constraints of `Cylinder.moment_custom_vertex_constraints` on the two disks, for a body at the
origin. -/
def CylFeasible (L r : ℝ) (J0 : Matrix (Fin 4) (Fin 4) ℝ) : Prop :=
  ∃ J1 J2 : Matrix (Fin 4) (Fin 4) ℝ, Spec.PSD J1 ∧ Spec.PSD J2 ∧
    RealJ (Spec.ellipsoid ![r, r, 0] 1 ![0, 0, (1 / 2) * L]) J1 ∧
    RealJ (Spec.ellipsoid ![r, r, 0] 1 ![0, 0, -((1 / 2) * L)]) J2 ∧
    (∀ i j : Fin 4, i < j → J0 i j = (J1 + J2) i j) ∧
    J0 0 0 = (J1 + J2) 0 0 ∧ J0 1 1 = (J1 + J2) 1 1 ∧ J0 2 2 ≤ (J1 + J2) 2 2 ∧ J0 3 3 = (J1 + J2) 3 3

theorem CylFeasible.zero (L r : ℝ) : CylFeasible L r 0 :=
  ⟨0, 0, Spec.PSD.zero, Spec.PSD.zero, RealJ.zero _, RealJ.zero _, by simp⟩

theorem CylFeasible.add {L r : ℝ} {J J' : Matrix (Fin 4) (Fin 4) ℝ} (h : CylFeasible L r J)
    (h' : CylFeasible L r J') : CylFeasible L r (J + J') := by
  obtain ⟨J1, J2, p1, p2, r1, r2, h1, h2, h3, h4, h5⟩ := h
  obtain ⟨J1', J2', p1', p2', r1', r2', h1', h2', h3', h4', h5'⟩ := h'
  refine ⟨J1 + J1', J2 + J2', p1.add p1', p2.add p2', r1.add r1', r2.add r2', ?_, ?_, ?_, ?_, ?_⟩ <;>
    simp only [Matrix.add_apply] at *
  · intro i j hij
    rw [h1 i j hij, h1' i j hij]; ring
  all_goals linarith

theorem disk0_iff {r : ℝ} (hr : 0 ≤ r) (z : ℝ) (p : Fin 3 → ℝ) :
    p ∈ Spec.ellipsoid ![r, r, 0] 1 ![0, 0, z] ↔ p 2 = z ∧ p 0 ^ 2 + p 1 ^ 2 ≤ r ^ 2 := by
  have := disk_iff ⟨0, r, 1, 0⟩ Spec.Orthogonal.one hr z p
  simpa [Spec.rigid] using this

theorem cyl0_iff (L r : ℝ) (p : Fin 3 → ℝ) :
    p ∈ Spec.cylinder L r 1 0 ↔ |p 2| ≤ L / 2 ∧ p 0 ^ 2 + p 1 ^ 2 ≤ r ^ 2 := by
  have := Spec_cylinder_iff (K := ℝ) Spec.Orthogonal.one L r 0 p
  simpa using this

theorem cyl_convex (L r : ℝ) : Convex ℝ (Spec.cylinder L r 1 0) := by
  intro x hx y hy a b ha hb hab
  rw [cyl0_iff] at *
  obtain ⟨hx1, hx2⟩ := hx
  obtain ⟨hy1, hy2⟩ := hy
  simp only [Pi.add_apply, Pi.smul_apply, smul_eq_mul]
  obtain rfl : b = 1 - a := by linarith
  constructor
  · rw [abs_le] at *
    constructor <;> nlinarith
  · nlinarith [mul_nonneg ha hb, mul_nonneg (mul_nonneg ha hb) (add_nonneg (sq_nonneg (x 0 - y 0)) (sq_nonneg (x 1 - y 1)))]

theorem CylFeasible.point {L r : ℝ} (hr : 0 ≤ r) {y : Fin 3 → ℝ} (hy : |y 2| ≤ L / 2)
    (hy' : y 0 ^ 2 + y 1 ^ 2 ≤ r ^ 2) {a : ℝ} (ha : 0 ≤ a) :
    CylFeasible L r (a • outer (IP.hom y) (IP.hom y)) := by
  obtain ⟨t, ht, hyt⟩ : ∃ t : ℝ, |t| ≤ 1 ∧ y 2 = t * (L / 2) := by
    have h0 : 0 ≤ L / 2 := (abs_nonneg _).trans hy
    refine ⟨y 2 / (L / 2), ?_, ?_⟩
    · rw [abs_div, abs_of_nonneg h0]
      exact div_le_one_of_le₀ hy h0
    · rcases eq_or_ne (L / 2) 0 with h | h
      · rw [h] at hy
        rw [h, mul_zero, abs_eq_zero.mp (le_antisymm hy (abs_nonneg _))]
      · rw [div_mul_cancel₀ _ h]
  rw [abs_le] at ht
  have w1 : 0 ≤ a * ((1 + t) / 2) := mul_nonneg ha (by linarith)
  have w2 : 0 ≤ a * ((1 - t) / 2) := mul_nonneg ha (by linarith)
  have q1 : (![y 0, y 1, (1 / 2) * L] : Fin 3 → ℝ) ∈ Spec.ellipsoid ![r, r, 0] 1 ![0, 0, (1 / 2) * L] := by
    rw [disk0_iff hr]; exact ⟨rfl, hy'⟩
  have q2 : (![y 0, y 1, -((1 / 2) * L)] : Fin 3 → ℝ) ∈
      Spec.ellipsoid ![r, r, 0] 1 ![0, 0, -((1 / 2) * L)] := by
    rw [disk0_iff hr]; exact ⟨rfl, hy'⟩
  have e0 : ∀ v : Fin 3 → ℝ, IP.hom v = ![v 0, v 1, v 2, 1] := by
    intro v; ext i; fin_cases i <;> rfl
  refine ⟨_, _, (Spec.PSD.outer _).smul w1, (Spec.PSD.outer _).smul w2, RealJ.point w1 q1, RealJ.point w2 q2,
    ?_, ?_, ?_, ?_, ?_⟩
  · intro i j hij
    fin_cases i <;> fin_cases j <;> simp at hij <;>
      simp [e0, outer_apply, hyt] <;> ring
  · simp [e0, outer_apply]; ring
  · simp [e0, outer_apply]; ring
  · simp [e0, outer_apply, hyt]
    have : t ^ 2 ≤ 1 := by nlinarith
    have h2 : t ^ 2 * (a * (L / 2) ^ 2) ≤ 1 * (a * (L / 2) ^ 2) :=
      mul_le_mul_of_nonneg_right this (by positivity)
    nlinarith
  · simp [e0, outer_apply]; ring

/-- What the builder returns. -/
theorem cyl_vertex_eq (c : Cylinder ℝ) (hr : Spec.Resolved c.radius) (x : ParamVar ℝ) (J : Matrix (Fin 4) (Fin 4) ℝ)
    (psd : Prop) (eps : ℝ) (heps : 0 ≤ eps) (hx : pimMustEqualParamVar x eps = .ok (J, psd)) :
    ∃ q, c.momentCustomVertexConstraints x eps = .ok q ∧
      (q → psd ∧ CylFeasible c.length c.radius
        (transformMatrixInv c.rotation c.center * J * (transformMatrixInv c.rotation c.center)ᵀ)) ∧
      (eps = 0 → psd ∧ CylFeasible c.length c.radius
        (transformMatrixInv c.rotation c.center * J * (transformMatrixInv c.rotation c.center)ᵀ) → q) := by
  have hres : ∀ i, Spec.Resolved ((![c.radius, c.radius, 0] : Fin 3 → ℝ) i) := by
    intro i; fin_cases i
    exacts [hr, hr, Or.inl rfl]
  have hm1 := fun J => C51_mat ⟨![c.radius, c.radius, 0], 1, ![0, 0, (1 / 2) * c.length]⟩ Spec.Orthogonal.one hres
    J eps heps false
  have hm2 := fun J => C51_mat ⟨![c.radius, c.radius, 0], 1, ![0, 0, -((1 / 2) * c.length)]⟩ Spec.Orthogonal.one hres
    J eps heps false
  obtain ⟨p1, hp1, -⟩ := hm1 0
  obtain ⟨p2, hp2, -⟩ := hm2 0
  have e : c.momentCustomVertexConstraints x eps = .ok (psd ∧ ∃ Js : List (Matrix (Fin 4) (Fin 4) ℝ),
      Js.length = c.disk0s.length ∧
    (∀ J ∈ Js, cvxPsdVar J) ∧
    (∀ Jd ∈ Js.zip c.disk0s, Py.Holds (Jd.2.momentConstraints (.mat Jd.1) eps)) ∧
    (∀ i j : Fin 4, i < j →
      (transformMatrixInv c.rotation c.center * J * (transformMatrixInv c.rotation c.center)ᵀ) i j = Js.sum i j) ∧
    (transformMatrixInv c.rotation c.center * J * (transformMatrixInv c.rotation c.center)ᵀ) 0 0 = Js.sum 0 0 ∧
    (transformMatrixInv c.rotation c.center * J * (transformMatrixInv c.rotation c.center)ᵀ) 1 1 = Js.sum 1 1 ∧
    (transformMatrixInv c.rotation c.center * J * (transformMatrixInv c.rotation c.center)ᵀ) 2 2 ≤ Js.sum 2 2 ∧
    (transformMatrixInv c.rotation c.center * J * (transformMatrixInv c.rotation c.center)ᵀ) 3 3 = Js.sum 3 3) := by
    unfold Cylinder.momentCustomVertexConstraints
    rw [hx]
    simp only [Cylinder.disk0s, List.mapM_cons, List.mapM_nil, bind, Except.bind, pure, Except.pure]
    rw [hp1, hp2]
  refine ⟨_, e, ?_, ?_⟩
  · rintro ⟨hpsd, Js, hl, hv, hd, hrest⟩
    refine ⟨hpsd, ?_⟩
    obtain ⟨J1, J2, rfl⟩ : ∃ J1 J2, Js = [J1, J2] := by
      match Js, hl with
      | [J1, J2], _ => exact ⟨J1, J2, rfl⟩
    have d1 := hd (J1, _) (List.mem_cons_self)
    have d2 := hd (J2, _) (List.mem_cons_of_mem _ List.mem_cons_self)
    obtain ⟨q1, hq1, hq1'⟩ := hm1 J1
    obtain ⟨q2, hq2, hq2'⟩ := hm2 J2
    obtain ⟨q1', hd1, hd1'⟩ := d1
    obtain ⟨q2', hd2, hd2'⟩ := d2
    rw [hq1] at hd1; obtain rfl := Except.ok.inj hd1
    rw [hq2] at hd2; obtain rfl := Except.ok.inj hd2
    have r1 := hq1'.mp hd1'
    have r2 := hq2'.mp hd2'
    simp only [List.sum_cons, List.sum_nil, add_zero] at hrest
    exact ⟨J1, J2, psd_of_eps heps r1.1, psd_of_eps heps r2.1, r1.2, r2.2, hrest⟩
  · rintro rfl ⟨hpsd, J1, J2, hs1, hs2, r1, r2, hrest⟩
    refine ⟨hpsd, [J1, J2], rfl, ?_, ?_, ?_⟩
    · intro J hJ
      simp only [List.mem_cons, List.not_mem_nil, or_false] at hJ
      rcases hJ with rfl | rfl
      exacts [hs1, hs2]
    · intro Jd hJd
      simp only [Cylinder.disk0s, List.zip_cons_cons, List.zip_nil_right, List.mem_cons, List.not_mem_nil,
        or_false] at hJd
      rcases hJd with rfl | rfl
      · obtain ⟨q, hq, hq'⟩ := hm1 J1
        exact ⟨q, hq, hq'.mpr ⟨by simpa using hs1, r1⟩⟩
      · obtain ⟨q, hq, hq'⟩ := hm2 J2
        exact ⟨q, hq, hq'.mpr ⟨by simpa using hs2, r2⟩⟩
    · simpa only [List.sum_cons, List.sum_nil, add_zero] using hrest

/-- C55: every mass distribution inside a cylinder (with zero or resolved radius) satisfies
`moment_custom_vertex_constraints` with `eps = 0`, for both kinds of variable. -/
theorem C55_vertex_necessary (c : Cylinder ℝ) (hR : Spec.Orthogonal c.rotation) (hr : Spec.Resolved c.radius)
    (p : IP ℝ) (hp : Spec.Realizable (Spec.cylinder c.length c.radius c.rotation c.center) p.mass p.h p.H) :
    Py.Holds (c.momentCustomVertexConstraints (.mat p.J) 0) ∧
      Py.Holds (c.momentCustomVertexConstraints (.vec p.vec) 0) := by
  obtain ⟨q, q', hq, hq', hqq, hq''⟩ := C19_vec p hp.symm 0 le_rfl
  have hpsd : q := hq''.mpr (by simpa [IP.J] using hp.psd)
  have hf : CylFeasible c.length c.radius
      (transformMatrixInv c.rotation c.center * p.J * (transformMatrixInv c.rotation c.center)ᵀ) := by
    refine Spec.Realizable.induct (P := fun m f H => CylFeasible c.length c.radius
      (transformMatrixInv c.rotation c.center * bordered H f f m * (transformMatrixInv c.rotation c.center)ᵀ))
      ?_ ?_ ?_ hp
    · rw [bordered_zero, Matrix.mul_zero, Matrix.zero_mul]; exact CylFeasible.zero _ _
    · intro m f H m' f' H' h1 h2
      rw [← bordered_add, Matrix.mul_add, Matrix.add_mul]
      exact h1.add h2
    · intro a p ha hp
      rw [pm_body]
      rw [Spec_cylinder_iff hR] at hp
      exact CylFeasible.point hr.nonneg hp.1 hp.2 ha
  obtain ⟨w1, h1, -, h1'⟩ := cyl_vertex_eq c hr _ _ _ 0 le_rfl hq'
  obtain ⟨w2, h2, -, h2'⟩ := cyl_vertex_eq c hr _ _ _ 0 le_rfl hq
  exact ⟨⟨w1, h1, h1' rfl ⟨hqq.mp hpsd, hf⟩⟩, ⟨w2, h2, h2' rfl ⟨hpsd, hf⟩⟩⟩

/-- C55: whenever `moment_custom_vertex_constraints` holds and the mass is positive, the centre of mass
lies in the cylinder. -/
theorem C55_vertex_com (c : Cylinder ℝ) (hR : Spec.Orthogonal c.rotation) (hr : Spec.Resolved c.radius)
    (hL : 0 ≤ c.length) (J : Matrix (Fin 4) (Fin 4) ℝ) (h : Py.Holds (c.momentCustomVertexConstraints (.mat J) 0))
    (hm : 0 < J 3 3) :
    (fun i : Fin 3 => J i.castSucc 3 / J 3 3) ∈ Spec.cylinder c.length c.radius c.rotation c.center := by
  obtain ⟨q, hq, hqq⟩ := h
  obtain ⟨psd, h1, -⟩ := C19_mat J 0 le_rfl
  obtain ⟨w, hw, hw', -⟩ := cyl_vertex_eq c hr _ _ _ 0 le_rfl h1
  rw [hq] at hw; obtain rfl := Except.ok.inj hw
  obtain ⟨-, J1, J2, -, -, r1, r2, hoff, -, -, -, h33⟩ := hw' hqq
  have hsub : ∀ z, |z| ≤ c.length / 2 → Spec.ellipsoid ![c.radius, c.radius, 0] 1 ![0, 0, z] ⊆
      Spec.cylinder c.length c.radius 1 0 := by
    intro z hz p hp
    rw [disk0_iff hr.nonneg] at hp
    rw [cyl0_iff, hp.1]
    exact ⟨hz, hp.2⟩
  have hz : |(1 / 2) * c.length| ≤ c.length / 2 := by rw [abs_of_nonneg (by positivity)]; linarith
  have r12 : RealJ _ (J1 + J2) := (r1.mono (hsub _ hz)).add (r2.mono (hsub _ (by rwa [abs_neg])))
  set X := transformMatrixInv c.rotation c.center * J * (transformMatrixInv c.rotation c.center)ᵀ with hX
  have hm' : X 3 3 = J 3 3 := by
    rw [hX, show (3 : Fin 4) = Fin.last 3 from rfl, body_last, Fin.snoc_last]
  have hcom := Spec.Realizable.com (cyl_convex _ _) r12 (by rw [← h33, hm']; exact hm)
  rw [← h33, hm', cyl0_iff] at hcom
  rw [Spec_cylinder_iff hR]
  have hy : ∀ i : Fin 3, (c.rotationᵀ *ᵥ ((fun i : Fin 3 => J i.castSucc 3 / J 3 3) - c.center)) i =
      ((J 3 3)⁻¹ • fun i : Fin 3 => (J1 + J2) i.castSucc 3) i := by
    intro i
    have e := hoff i.castSucc (Fin.last 3) (Fin.castSucc_lt_last i)
    rw [hX, body_last, Fin.snoc_castSucc] at e
    have hcm : (fun i : Fin 3 => J i.castSucc 3 / J 3 3) - c.center =
        (J 3 3)⁻¹ • ((fun i : Fin 3 => J i.castSucc (Fin.last 3)) - J (Fin.last 3) (Fin.last 3) • c.center) := by
      ext j
      have hm0 : J (Fin.last 3) (Fin.last 3) ≠ 0 := hm.ne'
      change J j.castSucc (Fin.last 3) / J (Fin.last 3) (Fin.last 3) - c.center j =
        (J (Fin.last 3) (Fin.last 3))⁻¹ * (J j.castSucc (Fin.last 3) - J (Fin.last 3) (Fin.last 3) * c.center j)
      field_simp
    rw [hcm, mulVec_smul, Pi.smul_apply, e]
    rfl
  rw [hy, hy, hy]
  exact hcom

/-- C55: with `eps > 0` the vertex constraints of a cylinder cannot be satisfied: the margin is also
imposed on the two (flat) disks. -/
theorem C55_vertex_eps (c : Cylinder ℝ) (hr : 0 ≤ c.radius) (x : ParamVar ℝ) (eps : ℝ) (heps : 0 < eps) :
    ¬ Py.Holds (c.momentCustomVertexConstraints x eps) := by
  rintro ⟨q, hq, hqq⟩
  unfold Cylinder.momentCustomVertexConstraints at hq
  cases hx : pimMustEqualParamVar x eps with
  | error e => rw [hx] at hq; cases hq
  | ok Jp =>
    by_cases hres : Spec.Resolved c.radius
    · have hq' := cyl_vertex_eq c hres x Jp.1 Jp.2 eps heps.le hx
      rw [hx] at hq
      simp only [bind, Except.bind] at hq
      cases hmm : c.disk0s.mapM fun disk => disk.momentConstraints (.mat 0) eps with
      | error e => rw [hmm] at hq; cases hq
      | ok w =>
        rw [hmm] at hq
        simp only [pure, Except.pure, Except.ok.injEq] at hq
        rw [← hq] at hqq
        obtain ⟨-, Js, hl, -, hd, -⟩ := hqq
        match Js, hl with
        | [J1, J2], _ =>
          have := hd (J1, _) List.mem_cons_self
          refine C51_degenerate_eps _ Spec.Orthogonal.one ?_ ⟨2, rfl⟩ J1 eps heps false this
          intro i; fin_cases i
          exacts [hres, hres, Or.inl rfl]
    · have h0 : c.radius ≠ 0 := fun h => hres (Or.inl h)
      have h1 : |c.radius| ≤ 1 / 100000000 := by
        rw [abs_of_nonneg hr]
        by_contra h
        exact hres (Or.inr (not_le.mp h))
      have := C51_unresolved ⟨![c.radius, c.radius, 0], 1, ![0, 0, (1 / 2) * c.length]⟩ 0 h1 h0 0 eps heps.le
      rw [hx] at hq
      simp only [Cylinder.disk0s, List.mapM_cons, bind, Except.bind] at hq
      rw [this] at hq
      cases hq

example : ∃ (c : Cylinder ℝ) (p : IP ℝ), Spec.Orthogonal c.rotation ∧ Spec.Resolved c.radius ∧ p.mass = 2 ∧
    Spec.Realizable (Spec.cylinder c.length c.radius c.rotation c.center) p.mass p.h p.H := by
  refine ⟨⟨2, 1, 1, 0⟩, ⟨2, ![0, 0, 1 / 2], 2 • outer ![0, 0, 1 / 2] ![0, 0, 1 / 2]⟩, Spec.Orthogonal.one,
    Or.inr (by norm_num), rfl, ?_⟩
  have := Spec.Realizable.point (S := Spec.cylinder 2 1 (1 : Matrix (Fin 3) (Fin 3) ℝ) 0) (a := 2)
    (p := ![0, 0, 1 / 2]) (by norm_num) (by rw [cyl0_iff]; change |(1 / 2 : ℝ)| ≤ 2 / 2 ∧ (0 : ℝ) ^ 2 + 0 ^ 2 ≤ 1 ^ 2; norm_num [abs_of_pos])
  simpa [IP.h, two_smul] using this

/-! ## C72 -/

/-- C72: the ellipsoid constraints force `J - eps 1` to be PSD. -/
theorem C72_ellipsoid (e : Ellipsoid ℝ 3) (J : Matrix (Fin 4) (Fin 4) ℝ) (eps : ℝ) (useTrace : Bool)
    (h : Py.Holds (e.momentConstraints (.mat J) eps useTrace)) :
    0 ≤ eps ∧ Spec.PSD (J - eps • (1 : Matrix (Fin 4) (Fin 4) ℝ)) := by
  obtain ⟨c, hc, hcc⟩ := h
  unfold Ellipsoid.momentConstraints at hc
  have heps : 0 ≤ eps := by
    by_contra hneg
    simp [pimMustEqualParamVar, hneg, bind, Except.bind] at hc
  obtain ⟨psd, h1, h2⟩ := C19_mat J eps heps
  refine ⟨heps, h2.mp ?_⟩
  rw [h1] at hc
  simp only [bind, Except.bind, pure, Except.pure] at hc
  by_cases hd : e.isDegenerate = true
  · simp only [hd, Bool.not_true, Bool.false_eq_true, if_false] at hc
    cases useTrace with
    | true => simp only [if_true, Except.ok.injEq] at hc; rw [← hc] at hcc; exact hcc.1
    | false =>
      simp only [Bool.false_eq_true, if_false] at hc
      cases hq : e.qvConstraint J with
      | error x => rw [hq] at hc; cases hc
      | ok w => rw [hq] at hc; simp only [Except.ok.injEq] at hc; rw [← hc] at hcc; exact hcc.1
  · simp only [hd, Bool.not_false, if_true] at hc
    cases hq : e.Q with
    | error x => rw [hq] at hc; cases hc
    | ok w => rw [hq] at hc; simp only [Except.ok.injEq] at hc; rw [← hc] at hcc; exact hcc.1

/-- C72: the vertex constraints of a polyhedron force `J - eps 1` to be PSD. -/
theorem C72_vertex (P : Poly ℝ 3) (J : Matrix (Fin 4) (Fin 4) ℝ) (eps : ℝ)
    (h : Py.Holds (P.momentVertexConstraints (.mat J) eps)) :
    0 ≤ eps ∧ Spec.PSD (J - eps • (1 : Matrix (Fin 4) (Fin 4) ℝ)) := by
  obtain ⟨c, hc, hcc⟩ := h
  unfold Poly.momentVertexConstraints at hc
  have heps : 0 ≤ eps := by
    by_contra hneg
    simp [pimMustEqualParamVar, hneg, bind, Except.bind] at hc
  obtain ⟨psd, h1, h2⟩ := C19_mat J eps heps
  refine ⟨heps, h2.mp ?_⟩
  rw [h1] at hc
  simp only [bind, Except.bind, pure, Except.pure, Except.ok.injEq] at hc
  rw [← hc] at hcc
  exact hcc.1

/-- C72: the vertex constraints of a box force `J - eps 1` to be PSD. -/
theorem C72_box (b : Box ℝ) (J : Matrix (Fin 4) (Fin 4) ℝ) (eps : ℝ)
    (h : Py.Holds (b.momentCustomVertexConstraints (.mat J) eps)) :
    0 ≤ eps ∧ Spec.PSD (J - eps • (1 : Matrix (Fin 4) (Fin 4) ℝ)) := by
  obtain ⟨c, hc, hcc⟩ := h
  unfold Box.momentCustomVertexConstraints at hc
  have heps : 0 ≤ eps := by
    by_contra hneg
    simp [pimMustEqualParamVar, hneg, bind, Except.bind] at hc
  obtain ⟨psd, h1, h2⟩ := C19_mat J eps heps
  refine ⟨heps, h2.mp ?_⟩
  rw [h1] at hc
  simp only [bind, Except.bind, pure, Except.pure, Except.ok.injEq] at hc
  rw [← hc] at hcc
  exact hcc.1

end Rigeo
