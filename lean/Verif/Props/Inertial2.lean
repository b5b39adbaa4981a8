import Verif.Props.Inertial

/-!
# Properties of `inertial.py` and `constraint.py`, continued: C13 - C19
-/

namespace Rigeo

open Matrix

section Field
variable {K : Type} [Field K] [LinearOrder K] [IsStrictOrderedRing K]

/-! ## C13: point masses -/

omit [LinearOrder K] [IsStrictOrderedRing K] in
theorem pm_sum_bordered (s : Spec.PointMasses K 3) :
    (((s.map Prod.fst).zip ((s.map Prod.snd).map IP.hom)).map fun mp => mp.1 • outer mp.2 mp.2).sum =
      bordered s.second s.first s.first s.mass := by
  induction s with
  | nil =>
    simp only [List.map_nil, List.zip_nil_right, List.sum_nil]
    exact bordered_zero.symm
  | cons mp s ih =>
    simp only [List.map_cons, List.zip_cons_cons, List.sum_cons]
    rw [ih]
    have e1 : Spec.PointMasses.mass (mp :: s) = mp.1 + Spec.PointMasses.mass s := by
      simp [Spec.PointMasses.mass]
    have e2 : Spec.PointMasses.first (mp :: s) = mp.1 • mp.2 + Spec.PointMasses.first s := by
      simp [Spec.PointMasses.first]
    have e3 : Spec.PointMasses.second (mp :: s) = mp.1 • vecMulVec mp.2 mp.2 + Spec.PointMasses.second s := by
      simp [Spec.PointMasses.second]
    rw [e1, e2, e3, IP.hom, outer_snoc, bordered_smul, bordered_add, outer_eq_vecMulVec]
    congr 1 <;> simp

omit [LinearOrder K] [IsStrictOrderedRing K] in
theorem pm_inertia (s : Spec.PointMasses K 3) : H2I s.second = s.inertia := by
  induction s with
  | nil => simp [Spec.PointMasses.second, Spec.PointMasses.inertia, H2I]
  | cons mp s ih =>
    have e3 : Spec.PointMasses.second (mp :: s) = mp.1 • vecMulVec mp.2 mp.2 + Spec.PointMasses.second s := by
      simp [Spec.PointMasses.second]
    have e4 : Spec.PointMasses.inertia (mp :: s) =
        mp.1 • ((mp.2 ⬝ᵥ mp.2) • 1 - vecMulVec mp.2 mp.2) + Spec.PointMasses.inertia s := by
      simp [Spec.PointMasses.inertia]
    rw [e3, e4, (C09_linear _ _ 0).1, (C09_linear (vecMulVec mp.2 mp.2) 0 mp.1).2.1, ih]
    have e : H2I (vecMulVec mp.2 mp.2) = (mp.2 ⬝ᵥ mp.2) • 1 - vecMulVec mp.2 mp.2 := by
      rw [H2I, ← outer_eq_vecMulVec, outer_trace]
    rw [e]

theorem fromPointMasses_eq (s : Spec.PointMasses K 3) (hpos : 0 < s.mass) :
    IP.fromPointMasses (s.map Prod.fst) (s.map Prod.snd) =
      .ok ⟨s.mass, fun i => s.first i / s.mass, s.second⟩ := by
  have hne : s ≠ [] := by rintro rfl; simp [Spec.PointMasses.mass] at hpos
  obtain ⟨mp, s', rfl⟩ := List.exists_cons_of_ne_nil hne
  unfold IP.fromPointMasses
  have hl : (((mp :: s').map Prod.fst).length == ((mp :: s').map Prod.snd).length) = true := by simp
  simp only [hl, pyAssert, if_true, bind, Except.bind]
  rw [if_neg (by simp), pm_sum_bordered, IP.fromPim_bordered _ _ _ _ hpos]

/-- C13: `from_point_masses` returns the moments of the system: total mass, first moment, second
moment, inertia matrix, and the mass-weighted mean as centre of mass. -/
theorem C13_moments (s : Spec.PointMasses K 3) (hpos : 0 < s.mass) :
    ∃ p, IP.fromPointMasses (s.map Prod.fst) (s.map Prod.snd) = .ok p ∧
      p.mass = s.mass ∧ p.h = s.first ∧ p.H = s.second ∧ p.I = s.inertia ∧
      s.mass • p.com = s.first := by
  refine ⟨_, fromPointMasses_eq s hpos, rfl, ?_, rfl, pm_inertia s, ?_⟩ <;>
  · ext i; simp only [IP.h, Pi.smul_apply, smul_eq_mul]; field_simp

omit [IsStrictOrderedRing K] in
/-- C13: error behaviour: mismatched lengths, an empty system, a system of zero total mass, and a
system of negative total mass. -/
theorem C13_errors :
    (∀ (ms : List K) (ps : List (Fin 3 → K)), ms.length ≠ ps.length →
      IP.fromPointMasses ms ps = .error .assertion) ∧
    IP.fromPointMasses ([] : List K) [] = .error .attribute ∧
    (∀ s : Spec.PointMasses K 3, s ≠ [] → s.mass = 0 →
      IP.fromPointMasses (s.map Prod.fst) (s.map Prod.snd) = .error .nonfinite) ∧
    (∀ s : Spec.PointMasses K 3, s.mass < 0 →
      IP.fromPointMasses (s.map Prod.fst) (s.map Prod.snd) = .error .assertion) := by
  refine ⟨?_, ?_, ?_, ?_⟩
  · intro ms ps h
    simp [IP.fromPointMasses, pyAssert, h, bind, Except.bind]
  · simp [IP.fromPointMasses, pyAssert, bind, Except.bind, throw, throwThe, MonadExceptOf.throw]
  · intro s hne h0
    obtain ⟨mp, s', rfl⟩ := List.exists_cons_of_ne_nil hne
    unfold IP.fromPointMasses
    have hl : (((mp :: s').map Prod.fst).length == ((mp :: s').map Prod.snd).length) = true := by simp
    simp only [hl, pyAssert, if_true, bind, Except.bind]
    rw [if_neg (by simp), pm_sum_bordered, h0, IP.fromPim_bordered_zero]
  · intro s h0
    have hne : s ≠ [] := by rintro rfl; simp [Spec.PointMasses.mass] at h0
    obtain ⟨mp, s', rfl⟩ := List.exists_cons_of_ne_nil hne
    unfold IP.fromPointMasses
    have hl : (((mp :: s').map Prod.fst).length == ((mp :: s').map Prod.snd).length) = true := by simp
    simp only [hl, pyAssert, if_true, bind, Except.bind]
    rw [if_neg (by simp), pm_sum_bordered, IP.fromPim, bordered_ll, IP.init_neg _ h0]

/-- C13: the result does not depend on the order of the points. -/
theorem C13_perm (s s' : Spec.PointMasses K 3) (h : s.Perm s') :
    IP.fromPointMasses (s.map Prod.fst) (s.map Prod.snd) =
      IP.fromPointMasses (s'.map Prod.fst) (s'.map Prod.snd) := by
  have e : ∀ s : Spec.PointMasses K 3, IP.fromPointMasses (s.map Prod.fst) (s.map Prod.snd) =
      if s.isEmpty then .error .attribute else
        IP.fromPim (bordered s.second s.first s.first s.mass) := by
    intro s
    unfold IP.fromPointMasses
    have hl : ((s.map Prod.fst).length == (s.map Prod.snd).length) = true := by simp
    simp only [hl, pyAssert, if_true, bind, Except.bind]
    rcases s with _ | ⟨mp, s⟩
    · simp [throw, throwThe, MonadExceptOf.throw]
    · rw [if_neg (by simp), if_neg (by simp), pm_sum_bordered]
  rw [e, e]
  have h1 : s.mass = s'.mass := (h.map _).sum_eq
  have h2 : s.first = s'.first := (h.map _).sum_eq
  have h3 : s.second = s'.second := (h.map _).sum_eq
  have h4 : s.isEmpty = s'.isEmpty := by
    rw [Bool.eq_iff_iff, List.isEmpty_iff, List.isEmpty_iff, ← List.length_eq_zero_iff, h.length_eq,
      List.length_eq_zero_iff]
  rw [h1, h2, h3, h4]

/-- C13: splitting the list of points and adding the two results gives the whole. -/
theorem C13_append (s s' : Spec.PointMasses K 3) (hs : 0 < s.mass) (hs' : 0 < s'.mass) :
    ∃ p q r, IP.fromPointMasses (s.map Prod.fst) (s.map Prod.snd) = .ok p ∧
      IP.fromPointMasses (s'.map Prod.fst) (s'.map Prod.snd) = .ok q ∧
      IP.fromPointMasses ((s ++ s').map Prod.fst) ((s ++ s').map Prod.snd) = .ok r ∧
      p.add q = .ok r := by
  have e1 : Spec.PointMasses.mass (s ++ s') = s.mass + s'.mass := by simp [Spec.PointMasses.mass]
  have e2 : Spec.PointMasses.first (s ++ s') = s.first + s'.first := by simp [Spec.PointMasses.first]
  have e3 : Spec.PointMasses.second (s ++ s') = s.second + s'.second := by simp [Spec.PointMasses.second]
  have hpos : 0 < Spec.PointMasses.mass (s ++ s') := by rw [e1]; positivity
  refine ⟨_, _, _, fromPointMasses_eq s hs, fromPointMasses_eq s' hs', fromPointMasses_eq _ hpos, ?_⟩
  unfold IP.add
  rw [IP.init_h_H _ (by positivity)]
  congr 1
  ext1
  · exact e1.symm
  · ext i
    simp only [IP.h, e1, e2, Pi.add_apply, Pi.smul_apply, smul_eq_mul]
    field_simp
  · exact e3.symm

/-- The pseudo-inertia matrix of any parameters with the moments of a system of non-negative point
masses is PSD. -/
theorem pm_psd (s : Spec.PointMasses K 3) (hs : s.Nonneg) :
    Spec.PSD (bordered s.second s.first s.first s.mass) := by
  rw [← pm_sum_bordered]
  apply Spec.PSD.list_sum
  intro X hX
  simp only [List.map_map, List.mem_map] at hX
  obtain ⟨mp, hmp, rfl⟩ := hX
  refine (Spec.PSD.outer _).smul ?_
  have := (List.of_mem_zip hmp).1
  simp only [List.mem_map] at this
  obtain ⟨x, hx, hx'⟩ := this
  rw [← hx']
  exact hs x hx

example : ∃ s : Spec.PointMasses ℚ 3, 0 < s.mass ∧ s.Nonneg ∧ s.length = 2 ∧ s.first ≠ 0 := by
  refine ⟨[(1, ![1, 0, 0]), (2, ![0, 1, 0])], ?_, ?_, rfl, ?_⟩
  · norm_num [Spec.PointMasses.mass]
  · intro mp h; simp at h; rcases h with rfl | rfl <;> norm_num
  · intro h; simpa [Spec.PointMasses.first] using congrFun h 0

/-! ## C14: transforms -/

/-- C14: the pseudo-inertia matrix transforms by congruence with the homogeneous matrix. This holds
for every matrix `R`, orthogonal or not. -/
theorem C14_J (p : IP K) (hm : 0 ≤ p.mass) (R : Matrix (Fin 3) (Fin 3) K) (t : Fin 3 → K) :
    ∃ q, p.transform (some R) (some t) = .ok q ∧
      q.J = transformMatrix R t * p.J * (transformMatrix R t)ᵀ ∧ q.mass = p.mass ∧
      q.com = Spec.rigid R t p.com ∧ q.Hc = R * p.Hc * Rᵀ := by
  refine ⟨_, IP.init_com_H _ hm _ _, ?_, rfl, rfl, ?_⟩
  · rw [IP.J, IP.J, transformMatrix, bordered_transpose, bordered_mul, bordered_mul, bordered_inj]
    simp only [IP.h, IP.Hc, Option.getD_some]
    have e : R * (p.H - p.mass • outer p.com p.com) * Rᵀ =
        R * p.H * Rᵀ - p.mass • outer (R *ᵥ p.com) (R *ᵥ p.com) := by
      rw [Matrix.mul_sub, Matrix.sub_mul, Matrix.mul_smul, Matrix.smul_mul, mul_outer_mul]
    rw [e]
    refine ⟨?_, ?_, ?_, ?_⟩
    · ext i j
      simp only [Matrix.add_apply, Matrix.sub_apply, Matrix.smul_apply, outer_apply, Pi.add_apply, smul_eq_mul,
        vecMulVec_apply, Matrix.add_mul, mulVec_smul, Pi.smul_apply]
      rw [show (vecMulVec t (p.mass • p.com) * Rᵀ) i j = t i * (p.mass * (R *ᵥ p.com) j) by
        rw [vecMulVec_mul, vecMulVec_apply, vecMul_transpose, mulVec_smul]; rfl]
      ring
    · simp [mulVec_add, mulVec_smul, smul_add, vecMulVec]
    · ext i
      simp [vecMul_transpose, mulVec_smul, mul_add]
    · simp
  · simp only [IP.Hc, Option.getD_some, add_sub_cancel_right]

/-- C14: the parameters of a transformed system of point masses are the transformed parameters. -/
theorem C14_point_masses (s : Spec.PointMasses K 3) (hpos : 0 < s.mass)
    (R : Matrix (Fin 3) (Fin 3) K) (t : Fin 3 → K) :
    ∃ p q, IP.fromPointMasses (s.map Prod.fst) (s.map Prod.snd) = .ok p ∧
      IP.fromPointMasses ((s.move R t).map Prod.fst) ((s.move R t).map Prod.snd) = .ok q ∧
      p.transform (some R) (some t) = .ok q := by
  have hmove : (s.move R t).mass = s.mass := by
    simp [Spec.PointMasses.mass, Spec.PointMasses.move]
    rfl
  have hfirst : (s.move R t).first = R *ᵥ s.first + s.mass • t := by
    clear hpos hmove
    induction s with
    | nil => simp [Spec.PointMasses.first, Spec.PointMasses.move, Spec.PointMasses.mass]
    | cons mp s ih =>
      simp only [Spec.PointMasses.first, Spec.PointMasses.move, Spec.PointMasses.mass, List.map_cons,
        List.sum_cons] at ih ⊢
      rw [ih]
      simp only [Spec.rigid, mulVec_add, mulVec_smul, smul_add, add_smul]
      abel
  have hsecond : bordered (s.move R t).second (s.move R t).first (s.move R t).first (s.move R t).mass =
      transformMatrix R t * bordered s.second s.first s.first s.mass * (transformMatrix R t)ᵀ := by
    rw [← pm_sum_bordered, ← pm_sum_bordered]
    clear hpos hmove hfirst
    induction s with
    | nil => simp [Spec.PointMasses.move]
    | cons mp s ih =>
      simp only [Spec.PointMasses.move, List.map_cons, List.zip_cons_cons, List.sum_cons] at ih ⊢
      rw [Matrix.mul_add, Matrix.add_mul, ← ih, Matrix.mul_smul, Matrix.smul_mul, mul_outer_mul]
      simp only [IP.hom]
      rw [C06_transformMatrix_acts]
  obtain ⟨q, hq, hJ, hm, -, -⟩ := C14_J ⟨s.mass, fun i => s.first i / s.mass, s.second⟩ hpos.le R t
  refine ⟨_, q, fromPointMasses_eq s hpos, ?_, hq⟩
  rw [fromPointMasses_eq _ (by rw [hmove]; exact hpos)]
  congr 1
  have hpJ : (⟨s.mass, fun i => s.first i / s.mass, s.second⟩ : IP K).J =
      bordered s.second s.first s.first s.mass := by
    unfold IP.J
    have : (⟨s.mass, fun i => s.first i / s.mass, s.second⟩ : IP K).h = s.first := by
      ext i; simp only [IP.h, Pi.smul_apply, smul_eq_mul]; field_simp
    rw [this]
  rw [← C12_J_injective _ _ (by rw [hmove]; exact hpos.ne'), hJ, hpJ, ← hsecond]
  unfold IP.J
  have : ∀ s : Spec.PointMasses K 3, 0 < s.mass → (⟨s.mass, fun i => s.first i / s.mass, s.second⟩ : IP K).h = s.first := by
    intro s hs; ext i; simp only [IP.h, Pi.smul_apply, smul_eq_mul]; field_simp
  rw [this _ (by rw [hmove]; exact hpos)]

/-- C14: transforms compose as rigid motions do. -/
theorem C14_compose (p : IP K) (hm : 0 ≤ p.mass) (R₁ R₂ : Matrix (Fin 3) (Fin 3) K)
    (t₁ t₂ : Fin 3 → K) :
    (do let q ← p.transform (some R₁) (some t₁); q.transform (some R₂) (some t₂)) =
      p.transform (some (R₂ * R₁)) (some (Spec.rigid R₂ t₂ t₁)) := by
  have h1 : p.transform (some R₁) (some t₁) = .ok ⟨p.mass, R₁ *ᵥ p.com + t₁,
    R₁ * p.Hc * R₁ᵀ + p.mass • outer (R₁ *ᵥ p.com + t₁) (R₁ *ᵥ p.com + t₁)⟩ := IP.init_com_H _ hm _ _
  rw [h1]
  simp only [bind, Except.bind]
  unfold IP.transform
  rw [IP.init_com_H _ hm, IP.init_com_H _ hm]
  have hc : R₂ *ᵥ (R₁ *ᵥ p.com + t₁) + t₂ = (R₂ * R₁) *ᵥ p.com + Spec.rigid R₂ t₂ t₁ := by
    simp only [Spec.rigid, mulVec_add, mulVec_mulVec]; abel
  congr 1
  ext1
  · rfl
  · exact hc
  · simp only [Option.getD_some, IP.Hc, add_sub_cancel_right]
    rw [hc]
    simp only [Matrix.transpose_mul, Matrix.mul_assoc]

/-- C14: the identity transform (also the defaults) leaves the parameters unchanged, and the inverse
motion undoes a transform by an orthogonal matrix. -/
theorem C14_inverse (p : IP K) (hm : 0 ≤ p.mass) (R : Matrix (Fin 3) (Fin 3) K)
    (hR : Spec.Orthogonal R) (t : Fin 3 → K) :
    p.transform = .ok p ∧
    (do let q ← p.transform (some R) (some t); q.transform (some Rᵀ) (some (-(Rᵀ *ᵥ t)))) = .ok p := by
  have hid : p.transform (some 1) (some 0) = .ok p := by
    unfold IP.transform
    rw [IP.init_com_H _ hm]
    congr 1
    ext1 <;> simp [IP.Hc]
  refine ⟨hid, ?_⟩
  rw [C14_compose p hm, show Rᵀ * R = 1 from hR]
  rw [show Spec.rigid Rᵀ (-(Rᵀ *ᵥ t)) t = 0 by simp [Spec.rigid]]
  exact hid

/-- C14: for orthogonal `R` the principal moments are kept: `H2I` commutes with the rotation, so the
inertia matrix about the CoM is rotated, `Ic ↦ R Ic Rᵀ`. -/
theorem C14_inertia_rotates (p : IP K) (hm : 0 ≤ p.mass) (R : Matrix (Fin 3) (Fin 3) K)
    (hR : Spec.Orthogonal R) (t : Fin 3 → K) (q : IP K)
    (hq : p.transform (some R) (some t) = .ok q) : q.Ic = R * p.Ic * Rᵀ := by
  obtain ⟨q', hq', -, -, -, hH⟩ := C14_J p hm R t
  rw [hq] at hq'
  obtain rfl := Except.ok.inj hq'
  have hR' : R * Rᵀ = 1 := mul_eq_one_comm.mp hR
  unfold IP.Ic H2I
  rw [hH, Matrix.trace_mul_comm, ← Matrix.mul_assoc, show Rᵀ * R = 1 from hR, Matrix.one_mul,
    Matrix.mul_sub, Matrix.sub_mul, Matrix.mul_smul, Matrix.smul_mul, Matrix.mul_one, hR']

example : ∃ (p : IP ℚ) (R : Matrix (Fin 3) (Fin 3) ℚ), 0 ≤ p.mass ∧ Spec.Orthogonal R ∧ R ≠ 1 :=
  ⟨⟨1, 0, 1⟩, !![0, -1, 0; 1, 0, 0; 0, 0, 1], by norm_num, by
    ext i j; fin_cases i <;> fin_cases j <;> simp [Matrix.mul_apply, Fin.sum_univ_three],
    fun h => by simpa using congrFun (congrFun h 0) 0⟩

/-! ## C15: addition -/

/-- C15: the sum of two parameter sets with positive total mass adds the pseudo-inertia matrices (and
therefore mass, first moment, second moment and inertia matrix). -/
theorem C15_add (p q : IP K) (hpq : 0 < p.mass + q.mass) :
    ∃ r, p.add q = .ok r ∧ r.J = p.J + q.J ∧ r.I = p.I + q.I := by
  refine ⟨_, IP.init_h_H _ hpq _ _, ?_, (C09_linear _ _ 0).1⟩
  have hh : (⟨p.mass + q.mass, fun i => (p.h + q.h) i / (p.mass + q.mass), p.H + q.H⟩ : IP K).h = p.h + q.h := by
    ext i; simp only [IP.h, Pi.smul_apply, smul_eq_mul, Pi.add_apply]; field_simp
  unfold IP.J
  rw [hh, bordered_add]

/-- C15: addition is commutative, including in its failures. -/
theorem C15_comm (p q : IP K) : p.add q = q.add p := by
  unfold IP.add
  rw [add_comm p.mass, add_comm p.h, add_comm p.H]

/-- C15: addition is associative on bodies with positive masses. -/
theorem C15_assoc (p q r : IP K) (hp : 0 < p.mass) (hq : 0 < q.mass) (hr : 0 < r.mass) :
    (do let a ← p.add q; a.add r) = (do let b ← q.add r; p.add b) := by
  obtain ⟨a, ha, haJ, -⟩ := C15_add p q (by positivity)
  obtain ⟨b, hb, hbJ, -⟩ := C15_add q r (by positivity)
  have hJ : ∀ x y z : IP K, x.J = y.J + z.J → x.mass = y.mass + z.mass := by
    intro x y z h
    rw [IP.J, IP.J, IP.J, bordered_add, bordered_inj] at h
    exact h.2.2.2
  have ham := hJ _ _ _ haJ
  have hbm := hJ _ _ _ hbJ
  obtain ⟨c, hc, hcJ, -⟩ := C15_add a r (by rw [ham]; positivity)
  obtain ⟨d, hd, hdJ, -⟩ := C15_add p b (by rw [hbm]; positivity)
  rw [ha, hb]
  simp only [bind, Except.bind]
  rw [hc, hd]
  have hcm := hJ _ _ _ hcJ
  have : c = d := by
    rw [← C12_J_injective _ _ (by rw [hcm, ham]; positivity), hcJ, haJ, hdJ, hbJ, add_assoc]
  rw [this]

/-- C15: Python's `sum()` over a non-empty list of bodies with positive mass returns the parameters
whose pseudo-inertia matrix is the sum; over the empty list it returns the integer `0`. -/
theorem C15_sum (ps : List (IP K)) (hpos : ∀ p ∈ ps, 0 < p.mass) :
    (ps = [] → IP.pySum ps = .ok (.inl 0)) ∧
    (ps ≠ [] → ∃ r, IP.pySum ps = .ok (.inr r) ∧ r.J = (ps.map IP.J).sum ∧
      r.mass = (ps.map IP.mass).sum ∧ 0 < r.mass) := by
  refine ⟨fun h => by subst h; rfl, fun hne => ?_⟩
  obtain ⟨p, ps, rfl⟩ := List.exists_cons_of_ne_nil hne
  have key : ∀ (ps : List (IP K)) (p : IP K), 0 < p.mass → (∀ q ∈ ps, 0 < q.mass) →
      ∃ r, ps.foldlM (fun (acc : ℤ ⊕ IP K) p => match acc with
        | .inl k => (p.radd (.inl k)).map .inr
        | .inr q => (q.add p).map .inr) (.inr p : ℤ ⊕ IP K) = (.ok (.inr r) : Py _) ∧
        r.J = p.J + (ps.map IP.J).sum ∧ r.mass = p.mass + (ps.map IP.mass).sum ∧ 0 < r.mass := by
    intro ps
    induction ps with
    | nil => intro p hp _; exact ⟨p, rfl, by simp, by simp, hp⟩
    | cons q ps ih =>
      intro p hp hq
      have hqm := hq q (by simp)
      obtain ⟨a, ha, haJ, -⟩ := C15_add p q (by positivity)
      have ham : a.mass = p.mass + q.mass := by
        rw [IP.J, IP.J, IP.J, bordered_add, bordered_inj] at haJ
        exact haJ.2.2.2
      obtain ⟨r, hr, hrJ, hrm, hr0⟩ := ih a (by rw [ham]; positivity) fun x hx => hq x (by simp [hx])
      refine ⟨r, ?_, ?_, ?_, hr0⟩
      · rw [List.foldlM_cons]
        simp only [ha, Except.map, bind, Except.bind]
        exact hr
      · rw [hrJ, haJ, List.map_cons, List.sum_cons, add_assoc]
      · rw [hrm, ham, List.map_cons, List.sum_cons, add_assoc]
  obtain ⟨r, hr, hrJ, hrm, hr0⟩ := key ps p (hpos p (by simp)) fun q hq => hpos q (by simp [hq])
  refine ⟨r, ?_, by simpa using hrJ, by simpa using hrm, hr0⟩
  unfold IP.pySum
  rw [List.foldlM_cons]
  simp only [IP.radd, if_true, Except.map, bind, Except.bind]
  exact hr

/-- C15: `zero()` is neutral for bodies of positive mass, but `zero() + zero()` divides `0/0`. -/
theorem C15_zero (p : IP K) (hm : 0 < p.mass) :
    ∃ z : IP K, IP.zero = .ok z ∧ z.J = 0 ∧ p.add z = .ok p ∧ z.add p = .ok p ∧
      z.add z = .error .nonfinite := by
  refine ⟨⟨0, 0, 0⟩, IP.init_com_H _ le_rfl _ _, ?_, ?_, ?_, ?_⟩
  · have : (⟨0, 0, 0⟩ : IP K).h = 0 := by simp [IP.h]
    unfold IP.J
    rw [this]
    exact bordered_zero
  · unfold IP.add
    simp only [add_zero]
    rw [IP.init_h_H _ hm]
    congr 1
    ext1
    · rfl
    · ext i; simp [IP.h, hm.ne']
    · rfl
  · unfold IP.add
    simp only [zero_add]
    rw [IP.init_h_H _ hm]
    congr 1
    ext1
    · rfl
    · ext i; simp [IP.h, hm.ne']
    · rfl
  · unfold IP.add
    simp only [add_zero]
    exact IP.init_h_H_zero _ _

omit [IsStrictOrderedRing K] in
/-- C15: adding a nonzero integer on the left is an AttributeError. -/
theorem C15_radd (p : IP K) (k : ℤ) :
    p.radd (.inl k) = if k = 0 then .ok p else .error .attribute := rfl

example : ∃ ps : List (IP ℚ), (∀ p ∈ ps, 0 < p.mass) ∧ ps.length = 2 :=
  ⟨[⟨1, 0, 1⟩, ⟨2, 1, 1⟩], by simp, rfl⟩

/-! ## C17: closure of consistency -/

/-- C17: the kinetic energy form: `V·(M V)` is the trace of `S J Sᵀ` with `S = [skew(ω) v]`. -/
theorem kinetic_eq (p : IP K) (hH : p.Hᵀ = p.H) (V : SV K) :
    ∃ S : Matrix (Fin 3) (Fin 4) K, V.vec ⬝ᵥ (p.M *ᵥ V.vec) = (S * p.J * Sᵀ).trace := by
  obtain ⟨S, h00, h01, h02, h03, h10, h11, h12, h13, h20, h21, h22, h23⟩ : ∃ S : Matrix (Fin 3) (Fin 4) K,
      S 0 0 = 0 ∧ S 0 1 = -(V.vec 2) ∧ S 0 2 = V.vec 1 ∧ S 0 3 = V.vec 3 ∧
      S 1 0 = V.vec 2 ∧ S 1 1 = 0 ∧ S 1 2 = -(V.vec 0) ∧ S 1 3 = V.vec 4 ∧
      S 2 0 = -(V.vec 1) ∧ S 2 1 = V.vec 0 ∧ S 2 2 = 0 ∧ S 2 3 = V.vec 5 :=
    ⟨!![0, -(V.vec 2), V.vec 1, V.vec 3; V.vec 2, 0, -(V.vec 0), V.vec 4; -(V.vec 1), V.vec 0, 0, V.vec 5],
      rfl, rfl, rfl, rfl, rfl, rfl, rfl, rfl, rfl, rfl, rfl, rfl⟩
  refine ⟨S, ?_⟩
  have s01 : p.H 1 0 = p.H 0 1 := congrFun (congrFun hH 0) 1
  have s02 : p.H 2 0 = p.H 0 2 := congrFun (congrFun hH 0) 2
  have s12 : p.H 2 1 = p.H 1 2 := congrFun (congrFun hH 1) 2
  have eJ : p.J = !![p.H 0 0, p.H 0 1, p.H 0 2, p.h 0; p.H 1 0, p.H 1 1, p.H 1 2, p.h 1;
      p.H 2 0, p.H 2 1, p.H 2 2, p.h 2; p.h 0, p.h 1, p.h 2, p.mass] := by
    ext i j; fin_cases i <;> fin_cases j <;> rfl
  rw [IP.M_eq, eJ]
  simp [IP.I, H2I, Matrix.trace, Matrix.mul_apply, mulVec, dotProduct, Fin.sum_univ_six, Fin.sum_univ_three,
    Fin.sum_univ_four, s01, s02, s12, h00, h01, h02, h03, h10, h11, h12, h13, h20, h21, h22, h23]
  ring

/-- C17: a body with PSD pseudo-inertia matrix has symmetric PSD spatial mass matrix (non-negative
kinetic energy for every twist), PSD second moment, and principal moments that obey the triangle
inequalities. -/
theorem C17_energy (p : IP K) (hJ : Spec.PSD p.J) :
    Spec.PSD p.M ∧ 0 ≤ p.mass ∧ Spec.PSD p.H ∧
    ∀ R, Spec.Orthogonal R → ∀ i, 2 * (Rᵀ * p.I * R) i i ≤ (Rᵀ * p.I * R).trace := by
  have hb := bordered_psd_block hJ
  refine ⟨⟨?_, fun v => ?_⟩, hb.2, hb.1, fun R hR i => C09_triangle p.H R hb.1 hR i⟩
  · have hI := p.I_symm hb.1.1
    have s01 : p.I 1 0 = p.I 0 1 := congrFun (congrFun hI 0) 1
    have s02 : p.I 2 0 = p.I 0 2 := congrFun (congrFun hI 0) 2
    have s12 : p.I 2 1 = p.I 1 2 := congrFun (congrFun hI 1) 2
    rw [IP.M_eq]
    ext i j
    fin_cases i <;> fin_cases j <;> simp [s01, s02, s12]
  · obtain ⟨S, hS⟩ := kinetic_eq p hb.1.1 ⟨v⟩
    have hS' : v ⬝ᵥ (p.M *ᵥ v) = (S * p.J * Sᵀ).trace := hS
    rw [hS']
    exact (hJ.congr S).trace_nonneg

/-- C17: the second moment about the centre of mass of a consistent body is PSD, and conversely. -/
theorem C17_Hc (p : IP K) (hm : 0 < p.mass) : Spec.PSD p.J ↔ Spec.PSD p.Hc := by
  rw [IP.J, bordered_psd_iff hm]
  have : p.H - p.mass⁻¹ • outer p.h p.h = p.Hc := by
    rw [IP.Hc, IP.h]
    congr 1
    ext i j
    simp only [Matrix.smul_apply, outer_apply, Pi.smul_apply, smul_eq_mul]
    field_simp
  rw [this]

/-- C17: consistency is preserved by addition, rigid (indeed any affine) transforms and scaling. -/
theorem C17_closure (p q : IP K) (hp : Spec.PSD p.J) (hq : Spec.PSD q.J) :
    (∀ r, p.add q = .ok r → Spec.PSD r.J) ∧
    (∀ R t r, p.transform R t = .ok r → Spec.PSD r.J) ∧
    (∀ (c : K) r, 0 ≤ c → IP.fromPim (c • p.J) = .ok r → Spec.PSD r.J) := by
  have hpm := (bordered_psd_block hp).2
  have hqm := (bordered_psd_block hq).2
  refine ⟨fun r hr => ?_, fun R t r hr => ?_, fun c r hc hr => ?_⟩
  · rcases (add_nonneg hpm hqm).eq_or_lt with h0 | h0
    · unfold IP.add at hr
      rw [← h0, IP.init_h_H_zero] at hr
      cases hr
    · obtain ⟨r', hr', hJ, -⟩ := C15_add p q h0
      rw [hr] at hr'
      obtain rfl := Except.ok.inj hr'
      rw [hJ]; exact hp.add hq
  · have hr2 : p.transform (some (R.getD 1)) (some (t.getD 0)) = .ok r := hr
    obtain ⟨r', hr', hJ, -⟩ := C14_J p hpm (R.getD 1) (t.getD 0)
    rw [hr2] at hr'
    obtain rfl := Except.ok.inj hr'
    rw [hJ]; exact hp.congr _
  · rw [IP.J, bordered_smul] at hr
    rcases (mul_nonneg hc hpm).eq_or_lt with h0 | h0
    · rw [← h0, IP.fromPim_bordered_zero] at hr; cases hr
    · rw [IP.fromPim_bordered _ _ _ _ h0] at hr
      obtain rfl := Except.ok.inj hr
      have : (⟨c * p.mass, fun i => (c • p.h) i / (c * p.mass), c • p.H⟩ : IP K).J = c • p.J := by
        have hh : (⟨c * p.mass, fun i => (c • p.h) i / (c * p.mass), c • p.H⟩ : IP K).h = c • p.h := by
          ext i; simp only [IP.h, Pi.smul_apply, smul_eq_mul]; field_simp
        rw [IP.J, hh, IP.J, bordered_smul]
      rw [this]; exact hp.smul hc

example : ∃ p : IP ℚ, Spec.PSD p.J ∧ p.mass = 1 ∧ p.com ≠ 0 := by
  refine ⟨⟨1, ![1, 0, 0], outer ![1, 0, 0] ![1, 0, 0]⟩, ?_, rfl, fun h => by simpa using congrFun h 0⟩
  rw [C17_Hc _ (by norm_num)]
  simpa [IP.Hc] using (Spec.PSD.zero (K := ℚ) (n := 3))

/-! ## C18 -/

/-- C18: `InertialParameters.random()` succeeds with mass in `[0.1, 1)` and is physically consistent,
for all generator outputs `u ∈ [0, 1)`, `c`, `A`. -/
theorem C18_random (u : K) (hu : 0 ≤ u) (hu1 : u < 1) (c : Fin 3 → K) (A : Matrix (Fin 3) (Fin 3) K) :
    ∃ p, IP.random u c A = .ok p ∧ Spec.PSD p.J ∧ 1 / 10 ≤ p.mass ∧ p.mass < 1 := by
  have hm : (0 : K) < 1 / 10 + u * (9 / 10) := by positivity
  refine ⟨_, IP.init_com_H _ hm.le _ _, ?_, ?_, ?_⟩
  · rw [C17_Hc _ hm]
    simp only [IP.Hc, add_sub_cancel_right]
    exact Spec.PSD.transpose_mul_self A
  · simp only [le_add_iff_nonneg_right]; positivity
  · simp only; linarith

/-! ## C19 -/

omit [IsStrictOrderedRing K] in
/-- C19: argument checking of `pim_psd` and `pim_must_equal_param_var`. -/
theorem C19_errors (x : ParamVar K) (J : Matrix (Fin 4) (Fin 4) K) (eps : K) :
    (eps < 0 → pimMustEqualParamVar x eps = .error .assertion ∧ pimPsd J eps = .error .assertion) ∧
    (0 ≤ eps → pimMustEqualParamVar (.other : ParamVar K) eps = .error .value) := by
  constructor
  · intro h; simp [pimMustEqualParamVar, pimPsd, not_le.mpr h]
  · intro h; simp [pimMustEqualParamVar, h]

omit [IsStrictOrderedRing K] in
/-- C19: for a (4, 4) variable the constraints hold exactly when `J` is symmetric and `J - eps I` is
PSD, and the returned matrix is the variable itself. -/
theorem C19_mat (J : Matrix (Fin 4) (Fin 4) K) (eps : K) (heps : 0 ≤ eps) :
    ∃ c, pimMustEqualParamVar (.mat J) eps = .ok (J, c) ∧ (c ↔ Spec.PSD (J - eps • (1 : Matrix (Fin 4) (Fin 4) K))) := by
  refine ⟨J = Jᵀ ∧ cvxPsd (J - eps • (1 : Matrix (Fin 4) (Fin 4) K)), ?_, ?_⟩
  · simp [pimMustEqualParamVar, pimPsd, heps, bind, Except.bind, pure, Except.pure]
  · unfold Spec.PSD cvxPsd
    have : (J - eps • (1 : Matrix (Fin 4) (Fin 4) K))ᵀ = J - eps • (1 : Matrix (Fin 4) (Fin 4) K) ↔ J = Jᵀ := by
      simp [eq_comm]
    rw [this]

/-- C19: for a (10,) variable the returned matrix is the pseudo-inertia matrix of the vector, and the
constraints hold exactly when it minus `eps I` is PSD; so the two kinds of variable give the same
constraint set for corresponding values. -/
theorem C19_vec (p : IP K) (hH : p.Hᵀ = p.H) (eps : K) (heps : 0 ≤ eps) :
    ∃ c c', pimMustEqualParamVar (.vec p.vec) eps = .ok (p.J, c) ∧
      pimMustEqualParamVar (.mat p.J) eps = .ok (p.J, c') ∧ (c ↔ c') ∧
      (c ↔ Spec.PSD (p.J - eps • (1 : Matrix (Fin 4) (Fin 4) K))) := by
  obtain ⟨c, hc, hc'⟩ := C19_mat p.J eps heps
  refine ⟨c, c, ?_, hc, Iff.rfl, hc'⟩
  rw [← hc]
  simp [pimMustEqualParamVar, C12_pim_of_vec p hH]

/-- C19: every parameter vector (whatever its numbers) gives a symmetric matrix, so the symmetry
constraint never excludes a vector. -/
theorem C19_vec_symmetric (θ : Fin 10 → K) : (pimMustEqualVec θ)ᵀ = pimMustEqualVec θ := by
  rw [pimMustEqualVec_eq, bordered_transpose, bordered_inj]
  refine ⟨?_, rfl, rfl, rfl⟩
  refine ((C09_linear (K := K) _ 0 0).2.2.2.2 ?_).2
  ext i j; fin_cases i <;> fin_cases j <;> rfl

end Field

/-! ## C16: meaning of `consistent` -/

/-- C16: `consistent(eps)` is True exactly when `J - eps I` is PSD. -/
theorem C16_consistent_iff (p : IP ℝ) (hH : p.Hᵀ = p.H) (eps : ℝ) :
    p.consistent eps = true ↔ Spec.PSD (p.J - eps • (1 : Matrix (Fin 4) (Fin 4) ℝ)) := by
  classical
  unfold IP.consistent
  simp only [decide_eq_true_eq]
  rw [eigen_ge_iff]
  rw [IP.J, bordered_transpose, hH]

/-- C16: a body of positive mass is `consistent()` exactly when some finite system of non-negative
point masses in space has exactly these inertial parameters. -/
theorem C16_realizable_iff (p : IP ℝ) (hm : 0 < p.mass) (hH : p.Hᵀ = p.H) :
    p.consistent = true ↔
      ∃ s : Spec.PointMasses ℝ 3, s.Nonneg ∧ s.mass = p.mass ∧ s.first = p.h ∧ s.second = p.H := by
  rw [C16_consistent_iff p hH, zero_smul, sub_zero]
  constructor
  · intro hJ
    have hc := (C17_Hc p hm).mp hJ
    obtain ⟨u, hu⟩ := hc.exists_outer
    set k : ℝ := Real.sqrt (3 / p.mass) with hk
    have hk2 : k * k = 3 / p.mass := Real.mul_self_sqrt (by positivity)
    refine ⟨[(p.mass / 6, p.com + k • u 0), (p.mass / 6, p.com - k • u 0),
      (p.mass / 6, p.com + k • u 1), (p.mass / 6, p.com - k • u 1),
      (p.mass / 6, p.com + k • u 2), (p.mass / 6, p.com - k • u 2)], ?_, ?_, ?_, ?_⟩
    · intro mp hmp
      simp at hmp
      rcases hmp with rfl | rfl | rfl | rfl | rfl | rfl <;> simp <;> positivity
    · simp [Spec.PointMasses.mass]; ring
    · ext i
      simp [Spec.PointMasses.first, IP.h]; ring
    · have hH' : p.H = p.mass • outer p.com p.com + ∑ k, outer (u k) (u k) := by
        rw [← hu, IP.Hc]; abel
      rw [hH']
      ext i j
      simp only [Spec.PointMasses.second, List.map_cons, List.map_nil, List.sum_cons, List.sum_nil,
        Matrix.add_apply, Matrix.smul_apply, vecMulVec_apply, Pi.add_apply, Pi.sub_apply, Pi.smul_apply,
        smul_eq_mul, Fin.sum_univ_three, outer_apply, Matrix.zero_apply]
      have e : ∀ a b : ℝ, p.mass / 3 * (k * a * (k * b)) = a * b := by
        intro a b
        rw [show p.mass / 3 * (k * a * (k * b)) = p.mass / 3 * (k * k) * (a * b) by ring, hk2]
        field_simp
      rw [← e (u 0 i), ← e (u 1 i), ← e (u 2 i)]
      ring
  · rintro ⟨s, hs, h1, h2, h3⟩
    have := pm_psd s hs
    rw [h1, h2, h3] at this
    exact this

/-- C16: the positive-mass hypothesis is needed: with mass zero `consistent()` can be True although
no system of non-negative point masses has these parameters. -/
theorem C16_zero_mass_counterexample :
    ∃ p : IP ℝ, IP.init 0 (com := some 0) (H := some 1) = .ok p ∧ p.consistent = true ∧
      ¬ ∃ s : Spec.PointMasses ℝ 3, s.Nonneg ∧ s.mass = p.mass ∧ s.first = p.h ∧ s.second = p.H := by
  refine ⟨⟨0, 0, 1⟩, IP.init_com_H _ le_rfl _ _, ?_, ?_⟩
  · rw [C16_consistent_iff _ (by simp), zero_smul, sub_zero]
    refine ⟨by simp [IP.J, bordered_transpose], ?_⟩
    rw [forall_snoc]
    intro x t
    rw [IP.J, bordered_quad]
    simpa [IP.h] using dot_self_nonneg x
  · rintro ⟨s, hs, h1, -, h3⟩
    have hz : ∀ mp ∈ s, mp.1 = 0 := by
      intro mp hmp
      have hsum : (s.map fun mp => mp.1).sum = 0 := h1
      have := List.single_le_sum (l := s.map fun mp => mp.1) (by
        intro x hx; simp only [List.mem_map] at hx; obtain ⟨y, hy, rfl⟩ := hx; exact hs y hy) mp.1
        (List.mem_map_of_mem (f := fun mp : ℝ × (Fin 3 → ℝ) => mp.1) hmp)
      exact le_antisymm (by rw [← hsum]; exact this) (hs mp hmp)
    have h4 : s.second = 0 := by
      unfold Spec.PointMasses.second
      refine List.sum_eq_zero fun X hX => ?_
      simp only [List.mem_map] at hX
      obtain ⟨mp, hmp, rfl⟩ := hX
      rw [hz mp hmp, zero_smul]
    rw [h4] at h3
    simpa using congrFun (congrFun h3 0) 0

/-- C13/C16: parameters built from non-negative point masses are physically consistent. -/
theorem C13_consistent (s : Spec.PointMasses ℝ 3) (hs : s.Nonneg) (hpos : 0 < s.mass) (p : IP ℝ)
    (hp : IP.fromPointMasses (s.map Prod.fst) (s.map Prod.snd) = .ok p) : p.consistent = true := by
  obtain ⟨q, hq, h1, h2, h3, -⟩ := C13_moments s hpos
  rw [hp] at hq
  obtain rfl := Except.ok.inj hq
  have hpsd := pm_psd s hs
  have hsym := (bordered_psd_block hpsd).1.1
  rw [C16_realizable_iff p (by rw [h1]; exact hpos) (by rw [h3]; exact hsym)]
  exact ⟨s, hs, h1.symm, h2.symm, h3.symm⟩

/-- C18 in terms of the API: `random().consistent()` is True. -/
theorem C18_random_consistent (u : ℝ) (hu : 0 ≤ u) (hu1 : u < 1) (c : Fin 3 → ℝ)
    (A : Matrix (Fin 3) (Fin 3) ℝ) (p : IP ℝ) (hp : IP.random u c A = .ok p) : p.consistent = true := by
  obtain ⟨q, hq, hJ, -, -⟩ := C18_random u hu hu1 c A
  rw [hp] at hq
  obtain rfl := Except.ok.inj hq
  rw [C16_consistent_iff p (bordered_psd_block hJ).1.1]
  simpa using hJ

/-- C18: a drawn `u` exists. -/
example : ∃ u : ℝ, 0 ≤ u ∧ u < 1 := ⟨1 / 2, by norm_num, by norm_num⟩

/-- C16: the hypotheses are met by a solid body. -/
example : ∃ p : IP ℝ, 0 < p.mass ∧ p.Hᵀ = p.H ∧ p.consistent = true := by
  refine ⟨⟨1, 0, 1⟩, by norm_num, by simp, ?_⟩
  rw [C16_consistent_iff _ (by simp), zero_smul, sub_zero, C17_Hc _ (by norm_num)]
  have : (⟨1, 0, 1⟩ : IP ℝ).Hc = 1 := by ext i j; simp [IP.Hc]
  rw [this]; exact Spec.PSD.one

end Rigeo
