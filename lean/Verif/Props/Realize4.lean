import Verif.Props.Realize3
import Verif.Props.Moment2

/-!
# The semidefinite moment relaxations of polyhedra and cylinders (C52, C55, C72)
-/

namespace Rigeo

open Matrix

section Field
variable {K : Type} [Field K] [LinearOrder K] [IsStrictOrderedRing K]

theorem mapM_ok_of_forall {α β : Type} (f : α → Py β) (l : List α) (h : ∀ a ∈ l, ∃ b, f a = .ok b) :
    ∃ bs, l.mapM f = .ok bs ∧ ∀ b ∈ bs, ∃ a ∈ l, f a = .ok b := by
  induction l with
  | nil => exact ⟨[], rfl, by simp⟩
  | cons a l ih =>
    obtain ⟨b, hb⟩ := h a (by simp)
    obtain ⟨bs, hbs, hm⟩ := ih fun x hx => h x (by simp [hx])
    refine ⟨b :: bs, by rw [List.mapM_cons, hb, hbs]; rfl, ?_⟩
    intro c hc
    rcases List.mem_cons.mp hc with rfl | hc
    · exact ⟨a, by simp, hb⟩
    · obtain ⟨x, hx, hx'⟩ := hm c hc
      exact ⟨x, by simp [hx], hx'⟩

theorem localizing_ok {n d : ℕ} (hd : 1 ≤ d) (M : Matrix (Fin (Polynomial.dim n d)) (Fin (Polynomial.dim n d)) K)
    (ps : List (Polynomial K n)) (hp : ∀ p ∈ ps, p.WF ∧ ∃ D, p.degree = .ok D ∧ D ≤ 2 * d) :
    ∃ c, MomentMatrix.localizingConstraints n d M ps = .ok c ∧
      ((∀ p ∈ ps, Py.Holds (MomentMatrix.localizingConstraint n d M p)) → c) := by
  obtain ⟨cs, h1, h2⟩ := mapM_ok_of_forall (MomentMatrix.localizingConstraint n d M) ps (by
    intro p hpm
    obtain ⟨hwf, D, hD, hv⟩ := hp p hpm
    obtain ⟨L, hL, -⟩ := C22_no_key_error hd M p hwf hD hv
    exact ⟨_, by rw [MomentMatrix.localizingConstraint, hL]; rfl⟩)
  refine ⟨_, by rw [MomentMatrix.localizingConstraints, h1]; rfl, fun h c hc => ?_⟩
  obtain ⟨p, hpm, hpc⟩ := h2 c hc
  obtain ⟨c', h', hcc⟩ := h p hpm
  rw [hpc] at h'
  rw [Except.ok.inj h']
  exact hcc

theorem basisIdx_start {d : ℕ} (hd : 1 ≤ d) :
    MomentMatrix.basisIdx 3 d 0 = 0 ∧ ∀ i : Fin 3, MomentMatrix.basisIdx 3 d (1 + i) = Pi.single i 1 := by
  obtain ⟨t, ht⟩ := C20_start 3 d hd
  have hl : 4 ≤ Polynomial.dim 3 d := by
    rw [← C20_length, ← ht]; simp
  have key : ∀ k (hk : k < 4) (α : Fin 3 → ℕ),
      (some (0 : Fin 3 → ℕ) :: (List.finRange 3).map fun i => some (Pi.single i 1))[k]? = some (some α) →
      MomentMatrix.basisIdx 3 d k = α := by
    intro k hk α h
    have h' := basis_get (n := 3) hd (hk.trans_le hl)
    rw [← ht, List.getElem?_append_left (by simpa using hk), h] at h'
    simpa using h'.symm
  refine ⟨key 0 (by omega) 0 rfl, fun i => key _ (by omega) _ ?_⟩
  fin_cases i <;> rfl

theorem mono_zero (x : Fin 3 → K) : Spec.mono 0 x = 1 := by simp [Spec.mono]

theorem mono_single (i : Fin 3) (x : Fin 3 → K) : Spec.mono (Pi.single i 1) x = x i := by
  unfold Spec.mono
  rw [Finset.prod_eq_single i]
  · simp
  · intro j _ hj; simp [hj]
  · simp

theorem pm_mass (s : Spec.PointMasses K 3) : s.mass = s.integral fun _ => 1 := by
  simp [Spec.PointMasses.mass, Spec.PointMasses.integral]

theorem pm_first (s : Spec.PointMasses K 3) (i : Fin 3) : s.first i = s.integral fun x => x i := by
  unfold Spec.PointMasses.first Spec.PointMasses.integral
  induction s with
  | nil => simp
  | cons mp s ih => simp only [List.map_cons, List.sum_cons, Pi.add_apply, ih]; simp

theorem pm_second (s : Spec.PointMasses K 3) (i j : Fin 3) : s.second i j = s.integral fun x => x i * x j := by
  unfold Spec.PointMasses.second Spec.PointMasses.integral
  induction s with
  | nil => simp
  | cons mp s ih => simp only [List.map_cons, List.sum_cons, Matrix.add_apply, ih]; simp [vecMulVec_apply]

/-- The relaxation is satisfied by the moments of every system of point masses in the set described by
the polynomials. -/
theorem momentSdp_holds {d : ℕ} (hd : 1 ≤ d) (ps : List (Polynomial K 3))
    (hp : ∀ p ∈ ps, p.WF ∧ ∃ D, p.degree = .ok D ∧ D ≤ 2 * d) (s : Spec.PointMasses K 3) (hs : s.Nonneg)
    (hpos : ∀ p ∈ ps, ∀ mp ∈ s, 0 ≤ p.evaluate mp.2) (J : Matrix (Fin 4) (Fin 4) K)
    (hJ : J = bordered s.second s.first s.first s.mass) : Py.Holds (momentSdp ps J d) := by
  have hd0 : d ≠ 0 := by omega
  unfold momentSdp
  obtain ⟨c0, h0, -⟩ := localizing_ok hd (0 : Matrix (Fin (Polynomial.dim 3 d)) (Fin (Polynomial.dim 3 d)) K) ps hp
  have hm0 := momentConstraints_ok hd (0 : Matrix (Fin (Polynomial.dim 3 d)) (Fin (Polynomial.dim 3 d)) K)
  rw [if_neg hd0]
  dsimp only
  rw [hm0, h0]
  refine ⟨_, rfl, ?_⟩
  set M : Matrix (Fin (Polynomial.dim 3 d)) (Fin (Polynomial.dim 3 d)) K :=
    Matrix.of fun i j => s.integral (Spec.mono (MomentMatrix.indices 3 d i j)) with hM
  have hMM : Spec.IsMomentMatrix d (fun α => s.integral (Spec.mono α)) M :=
    (IsMomentMatrix_iff hd _ _).mpr fun i j => rfl
  obtain ⟨h1, h2⟩ := C23_moment_matrix hd s hs M hMM
  obtain ⟨c, hc, hc'⟩ := localizing_ok hd M ps hp
  have hl : 4 ≤ Polynomial.dim 3 d := (dim_mono 3 hd).trans' (by decide)
  have hent : ∀ i j, i < 4 → j < 4 → entry M i j =
      s.integral fun x => Spec.mono (MomentMatrix.basisIdx 3 d i) x * Spec.mono (MomentMatrix.basisIdx 3 d j) x := by
    intro i j hi hj
    rw [entry, dif_pos ⟨hi.trans_le hl, hj.trans_le hl⟩]
    change s.integral (Spec.mono (MomentMatrix.indices 3 d i j)) = _
    congr 1
    funext x
    exact mono_add _ _ x
  obtain ⟨b0, b1⟩ := basisIdx_start hd
  refine ⟨M, h2, h1, ⟨c, hc, hc' fun p hpm => ?_⟩, ?_, ?_, ?_⟩
  · obtain ⟨hwf, D, hD, hv⟩ := hp p hpm
    exact (C23_localizing hd s hs M hMM p hwf hD hv (hpos p hpm)).2
  · rw [hent 0 0 (by omega) (by omega), b0, hJ, show (3 : Fin 4) = Fin.last 3 from rfl, bordered_ll, pm_mass]
    simp only [mono_zero, mul_one]
  · intro i
    rw [hent 0 (1 + i) (by omega) (by omega), b0, b1, hJ, show (3 : Fin 4) = Fin.last 3 from rfl, bordered_cl, pm_first]
    simp only [mono_zero, one_mul, mono_single]
  · intro i j
    rw [hent _ _ (by omega) (by omega), b1, b1, hJ, bordered_cc, pm_second]
    simp only [mono_single]

theorem affine_coefficients {n : ℕ} (a : Fin n → K) (b : K) :
    (Polynomial.affine a b).coefficients =
      (((0, b) :: (List.finRange n).map fun i => (Pi.single i 1, -a i)) : List ((Fin n → ℕ) × K)).filter
        fun kc => kc.2 ≠ 0 := by
  unfold Polynomial.affine
  rw [affine_items, init_coefficients _ (affine_nodup a b)]

theorem affine_degree {n : ℕ} (a : Fin n → K) (b : K) (h : (a, b) ≠ (0, 0)) :
    ∃ D, (Polynomial.affine a b).degree = .ok D ∧ D ≤ 1 := by
  have hc := affine_coefficients a b
  have hne : (Polynomial.affine a b).coefficients ≠ [] := by
    rw [hc]
    by_cases hb : b = 0
    · have : ∃ i, a i ≠ 0 := by
        by_contra hne
        push Not at hne
        exact h (by rw [hb, show a = 0 from funext hne])
      obtain ⟨i, hi⟩ := this
      apply List.ne_nil_of_mem (a := ((Pi.single i 1 : Fin n → ℕ), -a i))
      rw [List.mem_filter]
      exact ⟨List.mem_cons_of_mem _ (List.mem_map.mpr ⟨i, List.mem_finRange i, rfl⟩), by simpa using hi⟩
    · apply List.ne_nil_of_mem (a := ((0 : Fin n → ℕ), b))
      rw [List.mem_filter]
      exact ⟨by simp, by simpa using hb⟩
  obtain ⟨D, hD, -, kc, hkc, he⟩ := (C21_degree _).2 hne
  refine ⟨D, hD, ?_⟩
  rw [← he]
  rw [hc] at hkc
  have := (List.mem_filter.mp hkc).1
  rcases List.mem_cons.mp this with rfl | h'
  · simp
  · obtain ⟨i, -, rfl⟩ := List.mem_map.mp h'
    simp

/-- C52: every mass distribution inside a polyhedron satisfies `moment_sdp_constraints` at every order
`d ≥ 1`, for both kinds of variable. The polyhedron is given by its face form without trivial rows
`0 ≤ 0`. No condition on `eps` is needed (see C72). -/
theorem C52_necessary (P : Poly K 3) (hP : ∀ f ∈ P.faceForm.faces, f ≠ (0, 0)) (p : IP K)
    (hp : Spec.Realizable (Spec.halfspaces P.faceForm.faces) p.mass p.h p.H) (eps : K) (heps : 0 ≤ eps)
    (d : ℕ) (hd : 1 ≤ d) :
    Py.Holds (P.momentSdpConstraints (.mat p.J) eps d) ∧ Py.Holds (P.momentSdpConstraints (.vec p.vec) eps d) := by
  obtain ⟨c, c', hc, hc', -, -⟩ := C19_vec p hp.symm eps heps
  obtain ⟨s, hs, hin, e1, e2, e3⟩ := hp
  have key : Py.Holds (momentSdp P.polys p.J d) := by
    refine momentSdp_holds hd _ ?_ s hs ?_ _ (by rw [e1, e2, e3]; rfl)
    · intro q hq
      obtain ⟨f, hf, rfl⟩ := List.mem_map.mp hq
      obtain ⟨D, hD, hD'⟩ := affine_degree f.1 f.2 (hP f hf)
      exact ⟨(C21_affine f.1 f.2 0).1, D, hD, by omega⟩
    · intro q hq mp hmp
      obtain ⟨f, hf, rfl⟩ := List.mem_map.mp hq
      rw [(C21_affine f.1 f.2 _).2, sub_nonneg]
      exact hin mp hmp f hf
  unfold Poly.momentSdpConstraints
  rw [hc, hc']
  exact ⟨key, key⟩

/-- C52: a trivial row `0 ≤ 0` in the face form makes the builder fail with `ValueError` (`degree` of the
zero polynomial). -/
theorem C52_trivial_row (P : Poly K 3) (hP : (0, 0) ∈ P.faceForm.faces) (J : Matrix (Fin 4) (Fin 4) K) (eps : K)
    (heps : 0 ≤ eps) (d : ℕ) (hd : 1 ≤ d) : P.momentSdpConstraints (.mat J) eps d = .error .value := by
  obtain ⟨c, hc, -⟩ := C19_mat J eps heps
  unfold Poly.momentSdpConstraints
  rw [hc]
  change momentSdp P.polys J d = _
  unfold momentSdp
  have hm0 := momentConstraints_ok hd (0 : Matrix (Fin (Polynomial.dim 3 d)) (Fin (Polynomial.dim 3 d)) K)
  rw [if_neg (by omega : d ≠ 0)]
  dsimp only
  rw [hm0]
  have hz : (Polynomial.affine (0 : Fin 3 → K) 0).degree = .error .value := by
    apply (C21_degree _).1
    rw [affine_coefficients]
    simp
  have hloc : ∀ M, MomentMatrix.localizingConstraint 3 d M (Polynomial.affine (0 : Fin 3 → K) 0) = .error .value := by
    intro M
    rw [MomentMatrix.localizingConstraint, MomentMatrix.localize, hz]
    rfl
  have hl : ∀ (f : Polynomial K 3 → Py Prop) (ps : List (Polynomial K 3)),
      (∀ p ∈ ps, f p = .error .value ∨ ∃ c, f p = .ok c) → (∃ p ∈ ps, f p = .error .value) →
      ps.mapM f = .error .value := by
    intro f ps
    induction ps with
    | nil => rintro - ⟨p, hp, -⟩; simp at hp
    | cons q ps ih =>
      rintro h1 ⟨p, hp, hpe⟩
      rw [List.mapM_cons]
      rcases h1 q (by simp) with h | ⟨c, h⟩
      · rw [h]; rfl
      · rw [h]
        rcases List.mem_cons.mp hp with rfl | hp
        · rw [h] at hpe; cases hpe
        · rw [ih (fun x hx => h1 x (by simp [hx])) ⟨p, hp, hpe⟩]; rfl
  have : MomentMatrix.localizingConstraints 3 d
      (0 : Matrix (Fin (Polynomial.dim 3 d)) (Fin (Polynomial.dim 3 d)) K) P.polys = .error .value := by
    unfold MomentMatrix.localizingConstraints
    rw [hl]
    · rfl
    · intro q hq
      obtain ⟨f, hf, rfl⟩ := List.mem_map.mp hq
      by_cases h0 : f = (0, 0)
      · left; rw [h0]; exact hloc _
      · right
        obtain ⟨D, hD, hD'⟩ := affine_degree f.1 f.2 h0
        obtain ⟨L, hL, -⟩ := C22_no_key_error hd 0 _ (C21_affine f.1 f.2 0).1 hD (by omega)
        exact ⟨_, by rw [MomentMatrix.localizingConstraint, hL]; rfl⟩
    · exact ⟨_, List.mem_map.mpr ⟨_, hP, rfl⟩, hloc _⟩
  rw [this]
  rfl

theorem poly0s_wf (c : Cylinder K) : ∀ p ∈ c.poly0s, p.WF ∧ ∃ D, p.degree = .ok D ∧ D ≤ 2 := by
  have key : ∀ items : List ((Fin 3 → ℕ) × K), (items.map Prod.fst).Nodup → (∃ kc ∈ items, kc.2 ≠ 0) →
      (∀ kc ∈ items, ∑ i, kc.1 i ≤ 2) →
      (Polynomial.init items).WF ∧ ∃ D, (Polynomial.init items).degree = .ok D ∧ D ≤ 2 := by
    intro items h1 ⟨kc, hkc, h0⟩ h2
    refine ⟨C21_wf _ _ le_rfl, ?_⟩
    have e := init_coefficients items h1
    have hne : (Polynomial.init items).coefficients ≠ [] := by
      rw [e]
      exact List.ne_nil_of_mem (List.mem_filter.mpr ⟨hkc, by simpa using h0⟩)
    obtain ⟨D, hD, -, kc', hkc', he⟩ := (C21_degree _).2 hne
    refine ⟨D, hD, he ▸ h2 kc' ?_⟩
    rw [e] at hkc'
    exact (List.mem_filter.mp hkc').1
  intro p hp
  simp only [Cylinder.poly0s, List.mem_cons, List.not_mem_nil, or_false] at hp
  rcases hp with rfl | rfl | rfl
  · exact key _ (by simp) ⟨_, List.mem_cons_self, one_ne_zero⟩ (by simp [Fin.sum_univ_three])
  · exact key _ (by simp) ⟨_, List.mem_cons_self, by simp⟩ (by simp [Fin.sum_univ_three])
  · exact key _ (by simp) ⟨_, List.mem_cons_self, by simp⟩ (by simp [Fin.sum_univ_three])

/-- Moving point masses into the body frame transforms the pseudo-inertia matrix. -/
theorem pm_body_list {R : Matrix (Fin 3) (Fin 3) K} (c : Fin 3 → K) (s s' : Spec.PointMasses K 3)
    (hs' : s' = s.map fun mp => (mp.1, Rᵀ *ᵥ (mp.2 - c))) :
    transformMatrixInv R c * bordered s.second s.first s.first s.mass * (transformMatrixInv R c)ᵀ =
      bordered s'.second s'.first s'.first s'.mass := by
  subst hs'
  rw [pm_bordered, pm_bordered, List.map_map]
  induction s with
  | nil => simp
  | cons mp s ih =>
    simp only [List.map_cons, List.sum_cons, Matrix.mul_add, Matrix.add_mul, ih]
    congr 1
    rw [Matrix.mul_smul, Matrix.smul_mul, mul_outer_mul, transformMatrixInv_snoc, one_smul]
    rfl

/-- C55: every mass distribution inside a cylinder satisfies `moment_sdp_constraints` at every order
`d ≥ 1`, for both kinds of variable. -/
theorem C55_sdp_necessary (c : Cylinder K) (hR : Spec.Orthogonal c.rotation) (p : IP K)
    (hp : Spec.Realizable (Spec.cylinder c.length c.radius c.rotation c.center) p.mass p.h p.H) (eps : K)
    (heps : 0 ≤ eps) (d : ℕ) (hd : 1 ≤ d) :
    Py.Holds (c.momentSdpConstraints (.mat p.J) eps d) ∧ Py.Holds (c.momentSdpConstraints (.vec p.vec) eps d) := by
  obtain ⟨q, q', hq, hq', -, -⟩ := C19_vec p hp.symm eps heps
  obtain ⟨s, hs, hin, e1, e2, e3⟩ := hp
  have key : Py.Holds (momentSdp c.poly0s
      (transformMatrixInv c.rotation c.center * p.J * (transformMatrixInv c.rotation c.center)ᵀ) d) := by
    refine momentSdp_holds hd _ ?_ (s.map fun mp => (mp.1, c.rotationᵀ *ᵥ (mp.2 - c.center))) ?_ ?_ _ ?_
    · intro f hf
      obtain ⟨h1, D, h2, h3⟩ := poly0s_wf c f hf
      exact ⟨h1, D, h2, by omega⟩
    · intro mp hmp
      obtain ⟨mp', h', rfl⟩ := List.mem_map.mp hmp
      exact hs mp' h'
    · intro f hf mp hmp
      obtain ⟨mp', h', rfl⟩ := List.mem_map.mp hmp
      obtain ⟨h1, h2⟩ := (Spec_cylinder_iff hR _ _ _ _).mp (hin mp' h')
      set y := c.rotationᵀ *ᵥ (mp'.2 - c.center)
      rw [abs_le] at h1
      simp only [Cylinder.poly0s, List.mem_cons, List.not_mem_nil, or_false] at hf
      rcases hf with rfl | rfl | rfl
      · rw [init_evaluate _ (by simp)]
        simp [Fin.prod_univ_three]
        linarith [h1.1]
      · rw [init_evaluate _ (by simp)]
        simp [Fin.prod_univ_three]
        linarith [h1.2]
      · rw [init_evaluate _ (by simp)]
        simp [Fin.prod_univ_three]
        linarith
    · rw [← pm_body_list c.center s _ rfl, e1, e2, e3]
      rfl
  unfold Cylinder.momentSdpConstraints
  rw [hq, hq']
  exact ⟨key, key⟩

/-- C72: `moment_sdp_constraints` of a polyhedron and of a cylinder do not depend on `eps` at all (as long
as it is accepted, `eps ≥ 0`): the PSD constraints are built and dropped. -/
theorem C72_sdp_ignores_eps (P : Poly K 3) (c : Cylinder K) (J : Matrix (Fin 4) (Fin 4) K) (eps : K)
    (heps : 0 ≤ eps) (d : ℕ) :
    P.momentSdpConstraints (.mat J) eps d = P.momentSdpConstraints (.mat J) 0 d ∧
      c.momentSdpConstraints (.mat J) eps d = c.momentSdpConstraints (.mat J) 0 d := by
  obtain ⟨q, hq, -⟩ := C19_mat J eps heps
  obtain ⟨q', hq', -⟩ := C19_mat J 0 le_rfl
  unfold Poly.momentSdpConstraints Cylinder.momentSdpConstraints
  rw [hq, hq']
  exact ⟨rfl, rfl⟩

theorem unitbox_point : Spec.Realizable (Spec.halfspaces
    [((![1, 0, 0] : Fin 3 → K), 1), (![-1, 0, 0], 1), (![0, 1, 0], 1), (![0, -1, 0], 1), (![0, 0, 1], 1),
      (![0, 0, -1], 1)]) 1 ((1 : K) • 0) ((1 : K) • outer 0 0) := by
  refine Spec.Realizable.point zero_le_one ?_
  intro f hf
  simp only [List.mem_cons, List.not_mem_nil, or_false] at hf
  rcases hf with rfl | rfl | rfl | rfl | rfl | rfl <;> simp

/-- C72: so there are a polyhedron and a cylinder whose `moment_sdp_constraints` with `eps = 1` accept, at
every order, a pseudo-inertia matrix with a zero eigenvalue. -/
theorem C72_sdp_witness : ∃ (P : Poly K 3) (c : Cylinder K) (J : Matrix (Fin 4) (Fin 4) K),
    (∀ d, 1 ≤ d → Py.Holds (P.momentSdpConstraints (.mat J) 1 d) ∧ Py.Holds (c.momentSdpConstraints (.mat J) 1 d)) ∧
      ¬ Spec.PSD (J - (1 : K) • (1 : Matrix (Fin 4) (Fin 4) K)) := by
  let p : IP K := ⟨1, 0, 0⟩
  let P : Poly K 3 := ⟨[], ⟨[(![1, 0, 0], 1), (![-1, 0, 0], 1), (![0, 1, 0], 1), (![0, -1, 0], 1), (![0, 0, 1], 1),
      (![0, 0, -1], 1)]⟩⟩
  have hh : p.h = 0 := by simp [p, IP.h]
  refine ⟨P, ⟨2, 1, 1, 0⟩, p.J, fun d hd => ⟨?_, ?_⟩, fun h => ?_⟩
  · refine (C52_necessary P ?_ p ?_ 1 zero_le_one d hd).1
    · intro f hf
      simp only [P, List.mem_cons, List.not_mem_nil, or_false] at hf
      rcases hf with rfl | rfl | rfl | rfl | rfl | rfl <;> simp
    · rw [hh]
      have := unitbox_point (K := K)
      simpa [p, outer_eq_vecMulVec] using this
  · refine (C55_sdp_necessary ⟨2, 1, 1, 0⟩ Spec.Orthogonal.one p ?_ 1 zero_le_one d hd).1
    rw [hh]
    have := Spec.Realizable.point (S := Spec.cylinder 2 1 (1 : Matrix (Fin 3) (Fin 3) K) 0) (a := 1) (p := 0)
      zero_le_one ⟨0, by simp, by simp, by simp [Spec.rigid]⟩
    simpa [p, outer_eq_vecMulVec] using this
  · have := h.diag_nonneg 0
    have e : p.J 0 0 = 0 := by
      rw [IP.J, show (0 : Fin 4) = Fin.castSucc (0 : Fin 3) from rfl, bordered_cc]
      rfl
    rw [Matrix.sub_apply, e] at this
    simp at this
    linarith [zero_lt_one (α := K)]

example : ∃ (P : Poly ℚ 3) (p : IP ℚ), (∀ f ∈ P.faceForm.faces, f ≠ (0, 0)) ∧ p.mass = 2 ∧
    Spec.Realizable (Spec.halfspaces P.faceForm.faces) p.mass p.h p.H := by
  refine ⟨⟨[], ⟨[(![1, 0, 0], 1), (![-1, 0, 0], 1), (![0, 1, 0], 1), (![0, -1, 0], 1), (![0, 0, 1], 1),
      (![0, 0, -1], 1)]⟩⟩, ⟨2, ![1 / 2, 0, 0], outer ![1, 0, 0] ![1, 0, 0]⟩, ?_, rfl,
    ⟨[(1, 0), (1, ![1, 0, 0])], ?_, ?_, ?_, ?_, ?_⟩⟩
  · intro f hf
    simp only [List.mem_cons, List.not_mem_nil, or_false] at hf
    rcases hf with rfl | rfl | rfl | rfl | rfl | rfl <;> simp
  · intro mp hmp; simp at hmp; rcases hmp with rfl | rfl <;> norm_num
  · intro mp hmp f hf
    simp only [List.mem_cons, List.not_mem_nil, or_false] at hf hmp
    rcases hmp with rfl | rfl <;> rcases hf with rfl | rfl | rfl | rfl | rfl | rfl <;> simp
  · norm_num [Spec.PointMasses.mass]
  · ext i; fin_cases i <;> simp [Spec.PointMasses.first, IP.h]
  · simp [Spec.PointMasses.second, outer_eq_vecMulVec]

end Field
end Rigeo
