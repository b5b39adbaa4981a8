import Verif.Spec.Bodies
import Verif.Props.Realize4

/-!
# Properties of bodies made of several shapes (C56)
-/

namespace Rigeo

open Matrix

/-- The conditions under which the constraint builder of a single shape works: proper rotations, half
extents of ellipsoids that are zero or above `1e-8`, no trivial face row `(0, 0)`. -/
def AnyShape.Usable : AnyShape ℝ → Prop
  | .ellipsoid e => Spec.Orthogonal e.rotation ∧ ∀ i, Spec.Resolved (e.halfExtents i)
  | .box b => Spec.Orthogonal b.rotation
  | .poly P => ∀ f ∈ P.faceForm.faces, f ≠ (0, 0)
  | .cylinder c => Spec.Orthogonal c.rotation
  | .capsule _ => False

theorem box_halfspaces (b : Box ℝ) (hR : Spec.Orthogonal b.rotation) :
    Spec.halfspaces b.toPoly.faceForm.faces = Spec.box b.halfExtents b.rotation b.center := by
  ext p
  rw [← C25_contains b hR, Box.contains_iff, ← boxIneqs_iff]
  simp [Spec.halfspaces, Box.toPoly, FaceForm.init]

theorem box_rows_ne (b : Box ℝ) (hR : Spec.Orthogonal b.rotation) :
    ∀ f ∈ b.toPoly.faceForm.faces, f ≠ (0, 0) := by
  intro f hf h0
  have key : ∀ a : Fin 3 → ℝ, a ᵥ* b.rotationᵀ = 0 → a = 0 := by
    intro a ha
    have := congrArg (fun v => v ᵥ* b.rotation) ha
    simpa [vecMul_vecMul, show b.rotationᵀ * b.rotation = 1 from hR] using this
  simp only [Box.toPoly, FaceForm.init, Box.boxIneqs, List.mem_map] at hf
  obtain ⟨ab, hab, rfl⟩ := hf
  have h1 := key ab.1 (congrArg Prod.fst h0)
  simp only [List.mem_cons, List.not_mem_nil, or_false] at hab
  rcases hab with rfl | rfl | rfl | rfl | rfl | rfl <;> simp at h1

/-- Parameters with given realizable moments. -/
theorem exists_ip {S : Set (Fin 3 → ℝ)} {m : ℝ} {f : Fin 3 → ℝ} {H : Matrix (Fin 3) (Fin 3) ℝ}
    (h : Spec.Realizable S m f H) : ∃ p : IP ℝ, p.mass = m ∧ p.h = f ∧ p.H = H ∧ p.J = bordered H f f m := by
  have hf : m • (m⁻¹ • f) = f := by
    rcases h.mass_nonneg.eq_or_lt with e | e
    · have := h.psd
      rw [← e] at this
      rw [bordered_zero_corner this.2]; simp
    · rw [smul_smul, mul_inv_cancel₀ e.ne', one_smul]
  refine ⟨⟨m, m⁻¹ • f, H⟩, rfl, hf, rfl, ?_⟩
  unfold IP.J IP.h
  rw [hf]

/-- The constraints of one shape accept every distribution on it. -/
theorem shape_necessary (s : AnyShape ℝ) (hs : s.Usable) (p : IP ℝ)
    (hp : Spec.Realizable (Spec.region s) p.mass p.h p.H) (eps : ℝ) (heps : 0 ≤ eps)
    (hpsd : Spec.PSD (p.J - eps • (1 : Matrix (Fin 4) (Fin 4) ℝ))) (d : ℕ) (hd : 1 ≤ d) :
    Py.Holds (s.momentConstraints (.mat p.J) eps d) ∧ Py.Holds (s.momentConstraints (.vec p.vec) eps d) := by
  cases s with
  | ellipsoid e =>
    obtain ⟨c, hc, hc'⟩ := C51_vec e hs.1 hs.2 p hp.symm eps heps false
    obtain ⟨q, hq, hq'⟩ := C51_mat e hs.1 hs.2 p.J eps heps false
    obtain ⟨e1, e2, -, e4⟩ : (Matrix.of fun i j : Fin 3 => p.J i.castSucc j.castSucc) = p.H ∧
        (fun i : Fin 3 => p.J i.castSucc (Fin.last 3)) = p.h ∧
        (fun i : Fin 3 => p.J (Fin.last 3) i.castSucc) = p.h ∧ p.J (Fin.last 3) (Fin.last 3) = p.mass := by
      refine ⟨?_, ?_, ?_, ?_⟩
      · ext i j; exact bordered_cc _ _ _ _ i j
      · ext i; exact bordered_cl _ _ _ _ i
      · ext i; exact bordered_lc _ _ _ _ i
      · exact bordered_ll _ _ _ _
    refine ⟨⟨q, hq, hq'.mpr ⟨hpsd, ?_⟩⟩, ⟨c, hc, hc'.mpr ⟨hpsd, hp⟩⟩⟩
    rw [e1, show (fun i : Fin 3 => p.J i.castSucc 3) = p.h from e2, show p.J 3 3 = p.mass from e4]
    exact hp
  | box b =>
    refine C52_necessary b.toPoly (box_rows_ne b hs) p ?_ eps heps d hd
    rw [box_halfspaces b hs]; exact hp
  | poly P => exact C52_necessary P hs p hp eps heps d hd
  | cylinder c => exact C55_sdp_necessary c hs p hp eps heps d hd
  | capsule c => exact hs.elim

/-- Moments on a union of two sets split into moments on either set. -/
theorem realizable_union {S T : Set (Fin 3 → ℝ)} {m : ℝ} {f : Fin 3 → ℝ} {H : Matrix (Fin 3) (Fin 3) ℝ}
    (h : Spec.Realizable (S ∪ T) m f H) : ∃ m₁ f₁ H₁ m₂ f₂ H₂, Spec.Realizable S m₁ f₁ H₁ ∧
      Spec.Realizable T m₂ f₂ H₂ ∧ m = m₁ + m₂ ∧ f = f₁ + f₂ ∧ H = H₁ + H₂ := by
  refine Spec.Realizable.induct (P := fun m f H => ∃ m₁ f₁ H₁ m₂ f₂ H₂, Spec.Realizable S m₁ f₁ H₁ ∧
      Spec.Realizable T m₂ f₂ H₂ ∧ m = m₁ + m₂ ∧ f = f₁ + f₂ ∧ H = H₁ + H₂) ?_ ?_ ?_ h
  · exact ⟨0, 0, 0, 0, 0, 0, .zero _, .zero _, by simp, by simp, by simp⟩
  · rintro _ _ _ _ _ _ ⟨m₁, f₁, H₁, m₂, f₂, H₂, h1, h2, rfl, rfl, rfl⟩ ⟨n₁, g₁, G₁, n₂, g₂, G₂, k1, k2, rfl, rfl, rfl⟩
    exact ⟨_, _, _, _, _, _, h1.add k1, h2.add k2, by ring, by abel, by abel⟩
  · rintro a p ha (hp | hp)
    · exact ⟨_, _, _, 0, 0, 0, .point ha hp, .zero _, by simp, by simp, by simp⟩
    · exact ⟨0, 0, 0, _, _, _, .zero _, .point ha hp, by simp, by simp, by simp⟩

/-- Moments on the union of a list of shapes split into one realizable matrix per shape. -/
theorem realizable_split (shapes : List (AnyShape ℝ)) {m : ℝ} {f : Fin 3 → ℝ} {H : Matrix (Fin 3) (Fin 3) ℝ}
    (h : Spec.Realizable (Spec.bodyRegion shapes) m f H) :
    ∃ ps : List (IP ℝ), ps.length = shapes.length ∧
      (∀ sp ∈ shapes.zip ps, Spec.Realizable (Spec.region sp.1) sp.2.mass sp.2.h sp.2.H) ∧
      bordered H f f m = (ps.map IP.J).sum := by
  induction shapes generalizing m f H with
  | nil =>
    refine ⟨[], rfl, by simp, ?_⟩
    have : m = 0 ∧ f = 0 ∧ H = 0 := by
      refine Spec.Realizable.induct (P := fun m f H => m = 0 ∧ f = 0 ∧ H = 0) (by simp) ?_ ?_ h
      · rintro _ _ _ _ _ _ ⟨rfl, rfl, rfl⟩ ⟨rfl, rfl, rfl⟩; simp
      · rintro a p - ⟨s, hs, -⟩; simp at hs
    obtain ⟨rfl, rfl, rfl⟩ := this
    simp [bordered_zero]
  | cons s shapes ih =>
    have e : Spec.bodyRegion (s :: shapes) = Spec.region s ∪ Spec.bodyRegion shapes := by
      ext p; simp [Spec.bodyRegion]
    rw [e] at h
    obtain ⟨m₁, f₁, H₁, m₂, f₂, H₂, h1, h2, rfl, rfl, rfl⟩ := realizable_union h
    obtain ⟨ps, hl, hps, hsum⟩ := ih h2
    obtain ⟨p, rfl, rfl, rfl, hJ⟩ := exists_ip h1
    refine ⟨p :: ps, by simp [hl], ?_, ?_⟩
    · intro sp hsp
      rw [List.zip_cons_cons, List.mem_cons] at hsp
      rcases hsp with rfl | hsp
      · exact h1
      · exact hps sp hsp
    · rw [List.map_cons, List.sum_cons, ← hsum, hJ, bordered_add]

/-- The constraints posed for a body that does not consist of exactly one shape. -/
def MultiFeasible (shapes : List (AnyShape ℝ)) (d : ℕ) (J : Matrix (Fin 4) (Fin 4) ℝ) : Prop :=
  ∃ Js : List (Matrix (Fin 4) (Fin 4) ℝ), Js.length = shapes.length ∧ (∀ J ∈ Js, cvxPsdVar J) ∧
    (∀ sJ ∈ shapes.zip Js, Py.Holds (sJ.1.momentConstraints (.mat sJ.2) 0 d)) ∧ J = Js.sum

theorem multi_eq (body : RigidBody ℝ) (hlen : body.shapes.length ≠ 1) (hs : ∀ s ∈ body.shapes, s.Usable)
    (x : ParamVar ℝ) (J : Matrix (Fin 4) (Fin 4) ℝ) (c : Prop) (eps : ℝ) (d : ℕ) (hd : 1 ≤ d)
    (hx : pimMustEqualParamVar x eps = .ok (J, c)) :
    ∃ q, body.momentSdpConstraints x eps d = .ok q ∧ (q ↔ MultiFeasible body.shapes d J ∧ c) := by
  obtain ⟨bs, hbs, -⟩ := mapM_ok_of_forall (fun s : AnyShape ℝ => s.momentConstraints (.mat 0) 0 d) body.shapes
    (by
      intro s hsm
      have hz : (⟨0, 0, 0⟩ : IP ℝ).J = 0 := by
        have : (⟨0, 0, 0⟩ : IP ℝ).h = 0 := by simp [IP.h]
        simp only [IP.J, this, bordered_zero]
      have hh : (⟨0, 0, 0⟩ : IP ℝ).h = 0 := by simp [IP.h]
      obtain ⟨⟨q, hq, -⟩, -⟩ := shape_necessary s (hs s hsm) ⟨0, 0, 0⟩ (by rw [hh]; exact .zero _) 0 le_rfl
        (by rw [hz]; simpa using Spec.PSD.zero) d hd
      rw [hz] at hq
      exact ⟨q, hq⟩)
  unfold RigidBody.momentSdpConstraints
  split
  · rename_i s h; rw [h] at hlen; simp at hlen
  · rw [hx]
    simp only [bind, Except.bind]
    rw [hbs]
    refine ⟨_, rfl, ?_⟩
    unfold MultiFeasible
    constructor
    · rintro ⟨Js, h1, h2, h3, h4, h5⟩
      exact ⟨⟨Js, h1, h2, h3, h4⟩, h5⟩
    · rintro ⟨⟨Js, h1, h2, h3, h4⟩, h5⟩
      exact ⟨Js, h1, h2, h3, h4, h5⟩

/-- C56: every mass distribution on the union of the shapes of a body satisfies
`RigidBody.moment_sdp_constraints`, for the `(4, 4)` and the `(10,)` variable and at every relaxation order
`d >= 1` (if `eps > 0`, provided that the eigenvalues of its pseudo-inertia matrix are at least `eps`). -/
theorem C56_necessary (body : RigidBody ℝ) (hs : ∀ s ∈ body.shapes, s.Usable) (p : IP ℝ)
    (hp : Spec.Realizable (Spec.bodyRegion body.shapes) p.mass p.h p.H) (eps : ℝ) (heps : 0 ≤ eps)
    (hpsd : Spec.PSD (p.J - eps • (1 : Matrix (Fin 4) (Fin 4) ℝ))) (d : ℕ) (hd : 1 ≤ d) :
    Py.Holds (body.momentSdpConstraints (.mat p.J) eps d) ∧
      Py.Holds (body.momentSdpConstraints (.vec p.vec) eps d) := by
  by_cases hlen : body.shapes.length = 1
  · obtain ⟨s, h1⟩ := List.length_eq_one_iff.mp hlen
    unfold RigidBody.momentSdpConstraints
    rw [h1]
    refine shape_necessary s (hs s (by simp [h1])) p (hp.mono ?_) eps heps hpsd d hd
    rintro x ⟨s', hs', hx⟩
    rw [h1, List.mem_singleton] at hs'
    rwa [hs'] at hx
  · have hf : MultiFeasible body.shapes d p.J := by
      obtain ⟨ps, hl, hps, hsum⟩ := realizable_split body.shapes hp
      refine ⟨ps.map IP.J, by simp [hl], ?_, ?_, hsum⟩
      · intro J hJ
        obtain ⟨q, hq, rfl⟩ := List.mem_map.mp hJ
        obtain ⟨k, rfl⟩ := List.get_of_mem hq
        have hk : k.1 < (body.shapes.zip ps).length := by simp [← hl]
        have := hps _ (List.getElem_mem hk)
        rw [List.getElem_zip] at this
        exact this.psd
      · intro sJ hsJ
        rw [List.zip_map_right, List.mem_map] at hsJ
        obtain ⟨sp, hsp, rfl⟩ := hsJ
        have h1 := hps sp hsp
        have h2 : sp.1.Usable := hs _ (List.of_mem_zip hsp).1
        exact (shape_necessary sp.1 h2 sp.2 h1 0 le_rfl (by simpa [IP.J] using h1.psd) d hd).1
    obtain ⟨c, c', hc, hc', hcc, hc''⟩ := C19_vec p hp.symm eps heps
    have hcc1 : c := hc''.mpr hpsd
    obtain ⟨q, hq, hq'⟩ := multi_eq body hlen hs _ _ _ eps d hd hc'
    obtain ⟨r, hr, hr'⟩ := multi_eq body hlen hs _ _ _ eps d hd hc
    exact ⟨⟨q, hq, hq'.mpr ⟨hf, hcc.mp hcc1⟩⟩, ⟨r, hr, hr'.mpr ⟨hf, hcc1⟩⟩⟩

theorem ellipsoid_sum (shapes : List (AnyShape ℝ)) (hs : ∀ s ∈ shapes, s.Usable)
    (hell : ∀ s ∈ shapes, ∃ e, s = .ellipsoid e) (d : ℕ) (Js : List (Matrix (Fin 4) (Fin 4) ℝ))
    (hl : Js.length = shapes.length)
    (h : ∀ sJ ∈ shapes.zip Js, Py.Holds (sJ.1.momentConstraints (.mat sJ.2) 0 d)) :
    RealJ (Spec.bodyRegion shapes) Js.sum := by
  have key : ∀ (T : Set (Fin 3 → ℝ)) (shapes : List (AnyShape ℝ)) (Js : List (Matrix (Fin 4) (Fin 4) ℝ)),
      (∀ s ∈ shapes, s.Usable) → (∀ s ∈ shapes, ∃ e, s = .ellipsoid e) → (∀ s ∈ shapes, Spec.region s ⊆ T) →
      Js.length = shapes.length →
      (∀ sJ ∈ shapes.zip Js, Py.Holds (sJ.1.momentConstraints (.mat sJ.2) 0 d)) → RealJ T Js.sum := by
    intro T shapes
    induction shapes with
    | nil =>
      intro Js _ _ _ hl _
      rw [List.length_eq_zero_iff.mp hl]
      exact RealJ.zero _
    | cons s shapes ih =>
      intro Js hs hell hT hl h
      match Js, hl with
      | J :: Js, hl =>
      rw [List.sum_cons]
      refine RealJ.add ?_ (ih Js (fun s h => hs s (by simp [h])) (fun s h => hell s (by simp [h]))
        (fun s h => hT s (by simp [h])) (by simpa using hl) fun sJ hsJ => h sJ (by simp [hsJ]))
      obtain ⟨e, rfl⟩ := hell s (by simp)
      obtain ⟨c, hc, hcc⟩ := h (.ellipsoid e, J) (by simp)
      obtain ⟨c', hc', h'⟩ := C51_mat e (hs (.ellipsoid e) (by simp)).1 (hs (.ellipsoid e) (by simp)).2 J 0 le_rfl false
      change e.momentConstraints (.mat J) 0 = .ok c at hc
      rw [hc] at hc'
      obtain rfl := Except.ok.inj hc'
      exact (h'.mp hcc).2.mono (hT (.ellipsoid e) (by simp))
  exact key _ shapes Js hs hell (fun s hsm x hx => ⟨s, hsm, hx⟩) hl h

/-- C56: if every shape of the body is an ellipsoid the constraints are exact: they hold exactly when `J`
minus `eps I` is PSD and `J` is the pseudo-inertia matrix of some mass distribution on the union of the
ellipsoids. -/
theorem C56_ellipsoids (body : RigidBody ℝ) (hs : ∀ s ∈ body.shapes, s.Usable)
    (hell : ∀ s ∈ body.shapes, ∃ e, s = .ellipsoid e) (J : Matrix (Fin 4) (Fin 4) ℝ) (eps : ℝ)
    (heps : 0 ≤ eps) (d : ℕ) (hd : 1 ≤ d) :
    Py.Holds (body.momentSdpConstraints (.mat J) eps d) ↔
      Spec.PSD (J - eps • (1 : Matrix (Fin 4) (Fin 4) ℝ)) ∧
        Spec.Realizable (Spec.bodyRegion body.shapes) (J 3 3) (fun i => J i.castSucc 3)
          (Matrix.of fun i j => J i.castSucc j.castSucc) := by
  constructor
  · rintro ⟨q, hq, hqq⟩
    by_cases hlen : body.shapes.length = 1
    · obtain ⟨s, h1⟩ := List.length_eq_one_iff.mp hlen
      obtain ⟨e, rfl⟩ := hell s (by simp [h1])
      have hu := hs (.ellipsoid e) (by simp [h1])
      obtain ⟨c, hc, h'⟩ := C51_mat e hu.1 hu.2 J eps heps false
      unfold RigidBody.momentSdpConstraints at hq
      rw [h1] at hq
      change e.momentConstraints (.mat J) eps = .ok q at hq
      rw [hq] at hc
      obtain rfl := Except.ok.inj hc
      obtain ⟨h2, h3⟩ := h'.mp hqq
      exact ⟨h2, h3.mono fun x hx => ⟨.ellipsoid e, by simp [h1], hx⟩⟩
    · obtain ⟨c, hc, hc'⟩ := C19_mat J eps heps
      obtain ⟨r, hr, hr'⟩ := multi_eq body hlen hs _ _ _ eps d hd hc
      rw [hq] at hr
      obtain rfl := Except.ok.inj hr
      obtain ⟨⟨Js, h1, -, h3, rfl⟩, h5⟩ := hr'.mp hqq
      exact ⟨hc'.mp h5, ellipsoid_sum _ hs hell d Js h1 h3⟩
  · rintro ⟨h1, h2⟩
    have hsym : Jᵀ = J := by
      have := h1.1
      rw [transpose_sub, transpose_smul, transpose_one] at this
      exact sub_left_injective this
    obtain ⟨p, e1, e2, e3, e4⟩ := exists_ip h2
    have hJ : p.J = J := by
      rw [e4]
      refine Eq.trans ?_ (bordered_self J)
      congr 1
      ext i
      exact congrFun (congrFun hsym (Fin.last 3)) i.castSucc
    have := (C56_necessary body hs p (by rw [e1, e2, e3]; exact h2) eps heps (by rw [hJ]; exact h1) d hd).1
    rwa [hJ] at this

/-- C56: a body without shapes accepts only the zero matrix. -/
theorem C56_no_shapes (p : IP ℝ) (J : Matrix (Fin 4) (Fin 4) ℝ) (eps : ℝ) (heps : 0 ≤ eps) (d : ℕ) (hd : 1 ≤ d) :
    Py.Holds ((⟨[], p⟩ : RigidBody ℝ).momentSdpConstraints (.mat J) eps d) ↔ J = 0 ∧ eps = 0 := by
  rw [C56_ellipsoids _ (by simp) (by simp) J eps heps d hd]
  constructor
  · rintro ⟨h1, h2⟩
    obtain ⟨ps, hl, -, hsum⟩ := realizable_split [] h2
    have hps : ps = [] := List.length_eq_zero_iff.mp hl
    have hsym : Jᵀ = J := by
      have := h1.1
      rw [transpose_sub, transpose_smul, transpose_one] at this
      exact sub_left_injective this
    have hJ : J = 0 := by
      rw [hps] at hsum
      rw [← bordered_self J]
      refine Eq.trans ?_ hsum
      congr 1
      ext i
      exact (congrFun (congrFun hsym (Fin.last 3)) i.castSucc).symm
    refine ⟨hJ, le_antisymm ?_ heps⟩
    have := h1.2 (Pi.single 0 1)
    rw [hJ] at this
    simpa using this
  · rintro ⟨rfl, rfl⟩
    exact ⟨by simpa using Spec.PSD.zero, RealJ.zero _⟩

/-- C56: with a capsule among the shapes the method raises `AttributeError` (a capsule has no
`moment_sdp_constraints`), provided the other shapes are usable. -/
theorem C56_capsule (body : RigidBody ℝ) (c : Capsule ℝ) (hc : .capsule c ∈ body.shapes)
    (hs : ∀ s ∈ body.shapes, (∃ c', s = .capsule c') ∨ s.Usable) (J : Matrix (Fin 4) (Fin 4) ℝ) (eps : ℝ)
    (heps : 0 ≤ eps) (d : ℕ) (hd : 1 ≤ d) :
    body.momentSdpConstraints (.mat J) eps d = .error .attribute := by
  have key : ∀ shapes : List (AnyShape ℝ), .capsule c ∈ shapes →
      (∀ s ∈ shapes, (∃ c', s = .capsule c') ∨ s.Usable) →
      shapes.mapM (fun s : AnyShape ℝ => s.momentConstraints (.mat 0) 0 d) = .error .attribute := by
    intro shapes
    induction shapes with
    | nil => intro h; simp at h
    | cons s shapes ih =>
      intro h hs
      rw [List.mapM_cons]
      rcases hs s (by simp) with ⟨c', rfl⟩ | hu
      · rfl
      · have hz : (⟨0, 0, 0⟩ : IP ℝ).J = 0 := by
          have : (⟨0, 0, 0⟩ : IP ℝ).h = 0 := by simp [IP.h]
          simp only [IP.J, this, bordered_zero]
        have hh : (⟨0, 0, 0⟩ : IP ℝ).h = 0 := by simp [IP.h]
        obtain ⟨⟨q, hq, -⟩, -⟩ := shape_necessary s hu ⟨0, 0, 0⟩ (by rw [hh]; exact .zero _) 0 le_rfl
          (by rw [hz]; simpa using Spec.PSD.zero) d hd
        rw [hz] at hq
        rw [hq]
        have hne : AnyShape.capsule c ≠ s := by rintro rfl; exact hu
        rw [ih (by simpa [hne] using h) fun s h => hs s (by simp [h])]
        rfl
  unfold RigidBody.momentSdpConstraints
  split
  · rename_i s h
    rw [h, List.mem_singleton] at hc
    subst hc; rfl
  · obtain ⟨q, hq, -⟩ := C19_mat J eps heps
    rw [hq]
    simp only [bind, Except.bind]
    rw [key _ hc hs]

/-- C56: the hypotheses are satisfied by a body made of a ball and a box with a unit mass at the centre of
the ball. -/
example : ∃ (body : RigidBody ℝ) (p : IP ℝ), body.shapes.length = 2 ∧ (∀ s ∈ body.shapes, s.Usable) ∧
    Spec.Realizable (Spec.bodyRegion body.shapes) p.mass p.h p.H ∧ p.mass = 1 := by
  refine ⟨⟨[.ellipsoid ⟨fun _ => 1, 1, 0⟩, .box ⟨fun _ => 1, 1, fun _ => 5⟩], ⟨1, 0, 0⟩⟩, ⟨1, 0, 0⟩, rfl, ?_, ?_, rfl⟩
  · intro s hs
    simp only [List.mem_cons, List.not_mem_nil, or_false] at hs
    rcases hs with rfl | rfl
    · exact ⟨by simp [Spec.Orthogonal], fun i => Or.inr (by norm_num)⟩
    · change Spec.Orthogonal (1 : Matrix (Fin 3) (Fin 3) ℝ); simp [Spec.Orthogonal]
  · have := Spec.Realizable.point (K := ℝ) (S := Spec.bodyRegion
      [.ellipsoid ⟨fun _ => 1, 1, 0⟩, .box ⟨fun _ => 1, 1, fun _ => 5⟩]) (a := 1) (p := 0) zero_le_one
      ⟨.ellipsoid ⟨fun _ => 1, 1, 0⟩, by simp, 0, by simp, by ext i; simp [Spec.rigid]⟩
    convert this using 1
    · simp [IP.h]
    · ext i j; simp [outer_apply]

end Rigeo
