import Verif.Spec.Program
import Verif.Props.Body
import Verif.Props.DensityRealizable

/-!
# C117: programs that build bodies
-/

namespace Rigeo

open Matrix

variable {K : Type} [Field K] [LinearOrder K] [IsStrictOrderedRing K]

/-- The arguments of a program: valid shapes, as many masses as points and a positive total mass, rotations. -/
def _root_.Spec.LeavesOk : BodyProgram K → Prop
  | .empty shapes => ∀ s ∈ shapes, s.Valid
  | .masses shapes values points => (∀ s ∈ shapes, s.Valid) ∧ values.length = points.length ∧ 0 < values.sum
  | .given shapes p => (∀ s ∈ shapes, s.Valid) ∧ 0 < p.mass
  | .add a b => Spec.LeavesOk a ∧ Spec.LeavesOk b
  | .transform R _ a => Spec.Orthogonal R ∧ Spec.LeavesOk a

theorem bodyRegion_append (l l' : List (AnyShape K)) :
    Spec.bodyRegion (l ++ l') = Spec.bodyRegion l ∪ Spec.bodyRegion l' := by
  ext x
  simp only [Spec.bodyRegion, List.mem_append, Set.mem_ofPred_eq, Set.mem_union]
  constructor
  · rintro ⟨s, h | h, hx⟩
    exacts [.inl ⟨s, h, hx⟩, .inr ⟨s, h, hx⟩]
  · rintro (⟨s, h, hx⟩ | ⟨s, h, hx⟩)
    exacts [⟨s, .inl h, hx⟩, ⟨s, .inr h, hx⟩]

theorem zip_mass (values : List K) (points : List (Fin 3 → K)) (h : values.length = points.length) :
    Spec.PointMasses.mass (values.zip points) = values.sum := by
  rw [Spec.PointMasses.mass]
  change ((values.zip points).map Prod.fst).sum = _
  rw [List.map_fst_zip h.le]

theorem programMoments_nonneg (prog : BodyProgram K) (h : Spec.LeavesOk prog) : 0 ≤ (Spec.programMoments prog).mass := by
  induction prog with
  | empty => exact le_rfl
  | masses shapes values points =>
    change 0 ≤ Spec.PointMasses.mass (values.zip points)
    rw [zip_mass _ _ h.2.1]
    exact h.2.2.le
  | given shapes p => exact h.2.le
  | add a b iha ihb => exact add_nonneg (iha h.1) (ihb h.2)
  | transform R t a ih => exact ih h.2

/-- Elements of the second list have a partner in the first. -/
theorem forall₂_right {α β : Type} {P : α → β → Prop} {l : List α} {l' : List β} (h : List.Forall₂ P l l') {b : β} (hb : b ∈ l') :
    ∃ a ∈ l, P a b := by
  induction h with
  | nil => simp at hb
  | cons h1 _ ih =>
    rcases List.mem_cons.mp hb with rfl | h2
    · exact ⟨_, by simp, h1⟩
    · obtain ⟨a, ha, h3⟩ := ih h2
      exact ⟨a, by simp [ha], h3⟩

/-- The moments after `transform`. -/
theorem transform_moments (p q : IP K) (hm : 0 ≤ p.mass) (R : Matrix (Fin 3) (Fin 3) K) (t : Fin 3 → K)
    (hq : p.transform (some R) (some t) = .ok q) :
    (⟨q.mass, q.h, q.H⟩ : Spec.Moments K) = Spec.Moments.move R t ⟨p.mass, p.h, p.H⟩ := by
  obtain ⟨q', h1, -, h2, h3, h4⟩ := C14_J p hm R t
  rw [hq] at h1
  obtain rfl := Except.ok.inj h1
  ext1
  · exact h2
  · change q.h = R *ᵥ p.h + p.mass • t
    rw [IP.h, IP.h, h2, h3, Spec.rigid, mulVec_smul, smul_add]
  · have e : q.H = q.Hc + q.mass • outer q.com q.com := by rw [IP.Hc, sub_add_cancel]
    change q.H = R * p.H * Rᵀ + vecMulVec (R *ᵥ p.h) t + vecMulVec t (R *ᵥ p.h) + p.mass • vecMulVec t t
    rw [e, h4, h2, h3, IP.Hc, Matrix.mul_sub, Matrix.sub_mul, Matrix.mul_smul, Matrix.smul_mul, mul_outer_mul, IP.h,
      mulVec_smul, Spec.rigid]
    ext i j
    simp only [Matrix.add_apply, Matrix.sub_apply, outer_apply, Matrix.smul_apply, Pi.add_apply, smul_eq_mul, Pi.smul_apply,
      vecMulVec_apply]
    ring

/-- C117: A program with proper arguments in which no sum has two massless operands has a value: a body with valid shapes that cover the
region the program describes, and with the moments the program describes. -/
theorem C117_run (cdd : CddLib K) (hcdd : Spec.IsCdd cdd) (prog : BodyProgram K) (h : Spec.LeavesOk prog) (hb : Spec.Balanced prog) :
    ∃ body, prog.run cdd = .ok body ∧ (∀ s ∈ body.shapes, s.Valid) ∧ Spec.bodyRegion body.shapes = Spec.programRegion prog ∧
      (⟨body.params.mass, body.params.h, body.params.H⟩ : Spec.Moments K) = Spec.programMoments prog := by
  induction prog with
  | empty shapes =>
    obtain ⟨z, h1, -⟩ := C15_zero (⟨1, 0, 0⟩ : IP K) one_pos
    have hz : z = ⟨0, 0, 0⟩ := by
      have : (IP.zero : Py (IP K)) = .ok ⟨0, 0, 0⟩ := by
        simp [IP.zero, IP.init, pyAssert]
      rw [this] at h1
      exact (Except.ok.inj h1).symm
    subst hz
    refine ⟨⟨shapes, ⟨0, 0, 0⟩⟩, ?_, h, rfl, ?_⟩
    · unfold BodyProgram.run RigidBody.init; rw [h1]; rfl
    · simp [Spec.programMoments, IP.h]
  | masses shapes values points =>
    obtain ⟨hv, hl, hpos⟩ := h
    have hm : 0 < Spec.PointMasses.mass (values.zip points) := by rw [zip_mass _ _ hl]; exact hpos
    obtain ⟨p, hp, h1, h2, h3, -⟩ := C13_moments (values.zip points) hm
    rw [List.map_fst_zip hl.le, List.map_snd_zip hl.ge] at hp
    refine ⟨⟨shapes, p⟩, ?_, hv, rfl, ?_⟩
    · unfold BodyProgram.run; rw [hp]; rfl
    · change (⟨p.mass, p.h, p.H⟩ : Spec.Moments K) = _
      rw [h1, h2, h3]; rfl
  | given shapes p => exact ⟨⟨shapes, p⟩, rfl, h.1, rfl, rfl⟩
  | add a b iha ihb =>
    obtain ⟨x, ex, vx, rx, mx⟩ := iha h.1 hb.1
    obtain ⟨y, ey, vy, ry, my⟩ := ihb h.2 hb.2.1
    have hxm : x.params.mass = (Spec.programMoments a).mass := congrArg Spec.Moments.mass mx
    have hym : y.params.mass = (Spec.programMoments b).mass := congrArg Spec.Moments.mass my
    have hpos : 0 < x.params.mass + y.params.mass := by
      rw [hxm, hym]
      have h1 := programMoments_nonneg a h.1
      have h2 := programMoments_nonneg b h.2
      rcases hb.2.2 with h3 | h3
      · exact add_pos_of_pos_of_nonneg (lt_of_le_of_ne h1 h3.symm) h2
      · exact add_pos_of_nonneg_of_pos h1 (lt_of_le_of_ne h2 h3.symm)
    obtain ⟨c, hc, hs, hr, c1, c2, c3⟩ := C69_add x y hpos
    refine ⟨c, ?_, ?_, ?_, ?_⟩
    · unfold BodyProgram.run
      rw [ex, ey]
      exact hc
    · rw [hs]
      intro s hs
      rcases List.mem_append.mp hs with h | h
      exacts [vx s h, vy s h]
    · rw [hr, rx, ry]; rfl
    · rw [c1, c2, c3]
      change _ = (Spec.programMoments a).add (Spec.programMoments b)
      rw [← mx, ← my]; rfl
  | transform R t a ih =>
    obtain ⟨x, ex, vx, rx, mx⟩ := ih h.2 hb
    have hxm : x.params.mass = (Spec.programMoments a).mass := congrArg Spec.Moments.mass mx
    have hx0 : 0 ≤ x.params.mass := hxm ▸ programMoments_nonneg a h.2
    obtain ⟨l, hl, hf⟩ := mapM_forall₂ x.shapes fun s hs => C69_shape_transform cdd hcdd s (vx s hs) R h.1 t
    obtain ⟨q, hq, -⟩ := C14_J x.params hx0 R t
    refine ⟨⟨l, q⟩, ?_, fun s hs => ?_, ?_, ?_⟩
    · unfold BodyProgram.run
      rw [ex]
      change x.transform cdd (some R) (some t) = _
      unfold RigidBody.transform
      dsimp only [Option.getD_some]
      rw [hl, hq]
      rfl
    · obtain ⟨_, -, h1⟩ := forall₂_right hf hs
      exact h1.1
    · rw [show Spec.bodyRegion (⟨l, q⟩ : RigidBody K).shapes = Spec.moved R t (Spec.bodyRegion x.shapes) from bodyRegion_moved hf, rx]
      rfl
    · change _ = (Spec.programMoments a).move R t
      rw [← mx]
      exact transform_moments x.params q hx0 R t hq

/-- C117: Otherwise, with proper arguments, the program divides by a zero mass. -/
theorem C117_fails (cdd : CddLib K) (hcdd : Spec.IsCdd cdd) (prog : BodyProgram K) (h : Spec.LeavesOk prog) (hb : ¬ Spec.Balanced prog) :
    prog.run cdd = .error .nonfinite := by
  induction prog with
  | empty => exact absurd trivial hb
  | masses => exact absurd trivial hb
  | given => exact absurd trivial hb
  | add a b iha ihb =>
    by_cases ha : Spec.Balanced a
    · obtain ⟨x, ex, -, -, mx⟩ := C117_run cdd hcdd a h.1 ha
      by_cases hb' : Spec.Balanced b
      · obtain ⟨y, ey, -, -, my⟩ := C117_run cdd hcdd b h.2 hb'
        have h0 : (Spec.programMoments a).mass = 0 ∧ (Spec.programMoments b).mass = 0 := by
          by_contra hne
          exact hb ⟨ha, hb', by tauto⟩
        have hxm : x.params.mass = 0 := (congrArg Spec.Moments.mass mx).trans h0.1
        have hym : y.params.mass = 0 := (congrArg Spec.Moments.mass my).trans h0.2
        unfold BodyProgram.run
        rw [ex, ey]
        change x.add y = _
        have : x.params.add y.params = .error .nonfinite := by
          unfold IP.add
          rw [hxm, hym]
          simp [IP.init, pyAssert, vdiv]
          rfl
        unfold RigidBody.add
        rw [this]
        rfl
      · unfold BodyProgram.run
        rw [ex, ihb h.2 hb']
        rfl
    · unfold BodyProgram.run
      rw [iha h.1 ha]
      rfl
  | transform R t a ih =>
    unfold BodyProgram.run
    rw [ih h.2 hb]
    rfl

/-- C117: If every body in a program can be realized on its shapes, so can the value of the program. -/
theorem C117_realizable (cdd : CddLib K) (hcdd : Spec.IsCdd cdd) (prog : BodyProgram K) (h : Spec.LeavesOk prog)
    (hr : Spec.LeavesRealizable prog) {body : RigidBody K} (hrun : prog.run cdd = .ok body) :
    Spec.Realizable (Spec.bodyRegion body.shapes) body.params.mass body.params.h body.params.H := by
  have hb : Spec.Balanced prog := by
    by_contra hne
    rw [C117_fails cdd hcdd prog h hne] at hrun
    cases hrun
  obtain ⟨body', e, -, hreg, hm⟩ := C117_run cdd hcdd prog h hb
  rw [hrun] at e
  obtain rfl := Except.ok.inj e
  rw [hreg]
  have key : ∀ prog : BodyProgram K, Spec.LeavesRealizable prog →
      Spec.Realizable (Spec.programRegion prog) (Spec.programMoments prog).mass (Spec.programMoments prog).first
        (Spec.programMoments prog).second := by
    intro prog hr
    induction prog with
    | empty shapes => exact Spec.Realizable.zero _
    | masses shapes values points =>
      exact ⟨values.zip points, fun mp h => (hr mp h).1, fun mp h => (hr mp h).2, rfl, rfl, rfl⟩
    | given shapes p => exact hr
    | add a b iha ihb =>
      exact ((iha hr.1).mono Set.subset_union_left).add ((ihb hr.2).mono Set.subset_union_right)
    | transform R t a ih =>
      exact (ih hr).moved R t
  have h1 := key prog hr
  rw [← hm] at h1
  exact h1

/-- C117: and then the parameters pass the test `consistent`. -/
theorem C117_consistent (cdd : CddLib ℝ) (hcdd : Spec.IsCdd cdd) (prog : BodyProgram ℝ) (h : Spec.LeavesOk prog)
    (hr : Spec.LeavesRealizable prog) {body : RigidBody ℝ} (hrun : prog.run cdd = .ok body) : body.params.consistent = true :=
  C59_consistent body.params (C117_realizable cdd hcdd prog h hr hrun)

/-- C117: Programs that describe the same moments with a mass build bodies with the same parameters. -/
theorem C117_same (cdd : CddLib K) (hcdd : Spec.IsCdd cdd) (prog prog' : BodyProgram K) (h : Spec.LeavesOk prog) (h' : Spec.LeavesOk prog')
    (he : Spec.programMoments prog = Spec.programMoments prog') (hm : (Spec.programMoments prog).mass ≠ 0) {body body' : RigidBody K}
    (hrun : prog.run cdd = .ok body) (hrun' : prog'.run cdd = .ok body') : body.params = body'.params := by
  have key : ∀ (prog : BodyProgram K) (body : RigidBody K), Spec.LeavesOk prog → prog.run cdd = .ok body →
      (⟨body.params.mass, body.params.h, body.params.H⟩ : Spec.Moments K) = Spec.programMoments prog := by
    intro prog body h hrun
    have hb : Spec.Balanced prog := by
      by_contra hne
      rw [C117_fails cdd hcdd prog h hne] at hrun
      cases hrun
    obtain ⟨body', e, -, -, hm⟩ := C117_run cdd hcdd prog h hb
    rw [hrun] at e
    obtain rfl := Except.ok.inj e
    exact hm
  have e1 := key prog body h hrun
  have e2 := key prog' body' h' hrun'
  have e := e1.trans (he.trans e2.symm)
  have m1 : body.params.mass = body'.params.mass := congrArg Spec.Moments.mass e
  have m2 : body.params.h = body'.params.h := congrArg Spec.Moments.first e
  have m3 : body.params.H = body'.params.H := congrArg Spec.Moments.second e
  have m0 : body.params.mass ≠ 0 := by rw [show body.params.mass = _ from congrArg Spec.Moments.mass e1]; exact hm
  have m4 : body.params.com = body'.params.com := by
    rw [IP.h, IP.h, ← m1] at m2
    exact smul_right_injective _ m0 m2
  calc body.params = ⟨body.params.mass, body.params.com, body.params.H⟩ := rfl
    _ = _ := by rw [m1, m4, m3]

theorem moments_append (s s' : Spec.PointMasses K 3) :
    Spec.PointMasses.moments (s ++ s') = (Spec.PointMasses.moments s).add (Spec.PointMasses.moments s') := by
  simp [Spec.PointMasses.moments, Spec.Moments.add, Spec.PointMasses.mass, Spec.PointMasses.first, Spec.PointMasses.second]

/-- Moving the points moves the moments. -/
theorem moments_move (s : Spec.PointMasses K 3) (R : Matrix (Fin 3) (Fin 3) K) (t : Fin 3 → K) :
    Spec.PointMasses.moments (s.move R t) = (Spec.PointMasses.moments s).move R t := by
  induction s with
  | nil =>
    ext1
    · rfl
    · simp [Spec.PointMasses.moments, Spec.PointMasses.move, Spec.Moments.move, Spec.PointMasses.first, Spec.PointMasses.mass]
    · ext i j
      simp [Spec.PointMasses.moments, Spec.PointMasses.move, Spec.Moments.move, Spec.PointMasses.first, Spec.PointMasses.mass,
        Spec.PointMasses.second, vecMulVec_apply]
  | cons mp s ih =>
    have e1 : Spec.PointMasses.move (mp :: s) R t = [(mp.1, Spec.rigid R t mp.2)] ++ Spec.PointMasses.move s R t := rfl
    have e2 : mp :: s = [mp] ++ s := rfl
    rw [e1, moments_append, ih, e2, moments_append]
    ext1
    · simp [Spec.Moments.add, Spec.Moments.move, Spec.PointMasses.moments, Spec.PointMasses.mass]
    · simp only [Spec.Moments.add, Spec.Moments.move, Spec.PointMasses.moments, Spec.PointMasses.mass, Spec.PointMasses.first,
        List.map_cons, List.map_nil, List.sum_cons, List.sum_nil, add_zero, Spec.rigid, mulVec_add, mulVec_smul]
      module
    · simp only [Spec.Moments.add, Spec.Moments.move, Spec.PointMasses.moments, Spec.PointMasses.mass, Spec.PointMasses.first,
        Spec.PointMasses.second, List.map_cons, List.map_nil, List.sum_cons, List.sum_nil, add_zero, Spec.rigid, mulVec_add,
        mulVec_smul, Matrix.mul_add, Matrix.add_mul, Matrix.mul_smul, Matrix.smul_mul]
      have e3 : R * vecMulVec mp.2 mp.2 * Rᵀ = vecMulVec (R *ᵥ mp.2) (R *ᵥ mp.2) := mul_outer_mul R mp.2 mp.2
      rw [e3]
      ext i j
      simp only [Matrix.add_apply, Matrix.smul_apply, vecMulVec_apply, Pi.add_apply, Pi.smul_apply, smul_eq_mul]
      ring

theorem programPoints_moments (prog : BodyProgram K) : ∀ s, Spec.programPoints prog = some s →
    Spec.programMoments prog = Spec.PointMasses.moments s := by
  induction prog with
  | empty shapes =>
    intro s hs
    obtain rfl := Option.some.inj hs
    rfl
  | masses shapes values points =>
    intro s hs
    obtain rfl := Option.some.inj hs
    rfl
  | given => intro s hs; cases hs
  | add a b iha ihb =>
    intro s hs
    unfold Spec.programPoints at hs
    obtain ⟨x, hx, hs⟩ := Option.bind_eq_some_iff.mp hs
    obtain ⟨y, hy, hs⟩ := Option.bind_eq_some_iff.mp hs
    obtain rfl := Option.some.inj hs
    change (Spec.programMoments a).add (Spec.programMoments b) = _
    rw [moments_append, iha x hx, ihb y hy]
  | transform R t a ih =>
    intro s hs
    unfold Spec.programPoints at hs
    obtain ⟨x, hx, hs⟩ := Option.bind_eq_some_iff.mp hs
    obtain rfl := Option.some.inj hs
    change (Spec.programMoments a).move R t = _
    rw [moments_move, ih x hx]

/-- C117: If the bodies in a program are given by point masses, its value has the parameters that `from_point_masses` computes from all
the points, each where the program has moved it. -/
theorem C117_points (cdd : CddLib K) (hcdd : Spec.IsCdd cdd) (prog : BodyProgram K) (h : Spec.LeavesOk prog)
    {s : Spec.PointMasses K 3} (hs : Spec.programPoints prog = some s) (hm : s.mass ≠ 0) {body : RigidBody K}
    (hrun : prog.run cdd = .ok body) : IP.fromPointMasses (s.map Prod.fst) (s.map Prod.snd) = .ok body.params := by
  have e := programPoints_moments prog s hs
  have hpos : 0 < s.mass := by
    refine lt_of_le_of_ne ?_ hm.symm
    have := programMoments_nonneg prog h
    rwa [e] at this
  obtain ⟨p, hp, -⟩ := C13_moments s hpos
  rw [hp]
  have hfst : (s.map Prod.fst).zip (s.map Prod.snd) = s := by
    clear hs hm e hpos hp
    induction s with
    | nil => rfl
    | cons mp s ih => simp only [List.map_cons, List.zip_cons_cons, ih]
  have hl : Spec.LeavesOk (.masses [] (s.map Prod.fst) (s.map Prod.snd) : BodyProgram K) :=
    ⟨by simp, by simp, hpos⟩
  have hr : (BodyProgram.masses [] (s.map Prod.fst) (s.map Prod.snd) : BodyProgram K).run cdd = .ok ⟨[], p⟩ := by
    unfold BodyProgram.run; rw [hp]; rfl
  refine congrArg _ (C117_same cdd hcdd _ prog hl h ?_ ?_ hr hrun)
  · rw [e]
    change Spec.PointMasses.moments ((s.map Prod.fst).zip (s.map Prod.snd)) = _
    rw [hfst]
  · change Spec.PointMasses.mass ((s.map Prod.fst).zip (s.map Prod.snd)) ≠ 0
    rw [hfst]
    exact hm

/-- C117: Moving a sum is summing the moved bodies: the same region and the same parameters. -/
theorem C117_distribute (cdd : CddLib K) (hcdd : Spec.IsCdd cdd) (a b : BodyProgram K) (R : Matrix (Fin 3) (Fin 3) K) (t : Fin 3 → K)
    (h : Spec.LeavesOk (.transform R t (.add a b))) (hb : Spec.Balanced (.transform R t (.add a b))) :
    ∃ x y, (BodyProgram.transform R t (.add a b)).run cdd = .ok x ∧
      (BodyProgram.add (.transform R t a) (.transform R t b)).run cdd = .ok y ∧
      Spec.bodyRegion x.shapes = Spec.bodyRegion y.shapes ∧ x.params = y.params := by
  have h' : Spec.LeavesOk (.add (.transform R t a) (.transform R t b)) := ⟨⟨h.1, h.2.1⟩, ⟨h.1, h.2.2⟩⟩
  obtain ⟨x, ex, -, rx, mx⟩ := C117_run cdd hcdd _ h hb
  obtain ⟨y, ey, -, ry, my⟩ := C117_run cdd hcdd (.add (.transform R t a) (.transform R t b)) h' hb
  refine ⟨x, y, ex, ey, ?_, C117_same cdd hcdd _ _ h h' ?_ ?_ ex ey⟩
  · rw [rx, ry]
    exact Set.image_union _ _ _
  · change ((Spec.programMoments a).add (Spec.programMoments b)).move R t =
      ((Spec.programMoments a).move R t).add ((Spec.programMoments b).move R t)
    ext1
    · rfl
    · simp only [Spec.Moments.add, Spec.Moments.move, mulVec_add]
      module
    · simp only [Spec.Moments.add, Spec.Moments.move, mulVec_add, Matrix.mul_add, Matrix.add_mul]
      ext i j
      simp only [Matrix.add_apply, Matrix.smul_apply, vecMulVec_apply, Pi.add_apply, smul_eq_mul]
      ring
  · change (Spec.programMoments a).mass + (Spec.programMoments b).mass ≠ 0
    have h1 := programMoments_nonneg a h.2.1
    have h2 := programMoments_nonneg b h.2.2
    intro h0
    have h3 : (Spec.programMoments a).mass = 0 := by linarith
    have h4 : (Spec.programMoments b).mass = 0 := by linarith
    rcases hb.2.2 with h5 | h5
    exacts [h5 h3, h5 h4]

/-- C117: The bodies with the parameters of a density can be used in such a program. -/
theorem C117_density (s : AnyShape ℝ) (hs : s.Usable) (hv : s.Valid) (m : ℝ) (hm : 0 < m) (p : IP ℝ)
    (hp : match s with
      | .ellipsoid e => e.uniformDensityParams m = .ok p ∨ e.hollowDensityParams m = .ok p
      | .box b => b.uniformDensityParams m = .ok p ∨ b.hollowDensityParams m = .ok p ∨
          b.wireframeDensityParams m = .ok p ∨ b.toPoly.vertexPointMassParams (.inl m) = .ok p
      | .poly P => P.vertexPointMassParams (.inl m) = .ok p
      | .cylinder c => c.uniformDensityParams m = .ok p
      | .capsule _ => False) :
    Spec.LeavesRealizable (.given [s] p) := by
  have h := (C59_constraints s hs hv m hm p hp 1 le_rfl).1
  have hreg : Spec.bodyRegion [s] = Spec.region s := by
    ext x
    simp [Spec.bodyRegion]
  change Spec.Realizable (Spec.bodyRegion [s]) p.mass (p.mass • p.com) p.H
  rw [hreg]
  exact h

/-- The arguments of C117 for a box without mass, a ball with two masses and a sum that is moved by a quarter turn. -/
example : ∃ prog : BodyProgram ℚ, Spec.LeavesOk prog ∧ Spec.Balanced prog ∧ Spec.LeavesRealizable prog ∧
    ∃ s, Spec.programPoints prog = some s ∧ s.mass ≠ 0 := by
  refine ⟨.transform !![0, -1, 0; 1, 0, 0; 0, 0, 1] ![1, 2, 3] (.add (.empty [.box ⟨fun _ => 1, 1, 0⟩])
    (.masses [.ellipsoid ⟨fun _ => 2, 1, 0⟩] [1, 2] [![1, 0, 0], ![0, 1, 1]])), ⟨?_, ?_, ?_, rfl, ?_⟩, ⟨trivial, trivial, .inr ?_⟩,
    ⟨trivial, ?_⟩, _, rfl, ?_⟩
  · ext i j
    rw [Matrix.mul_apply, Fin.sum_univ_three]
    fin_cases i <;> fin_cases j <;> simp
  · intro s hs
    obtain rfl := List.mem_singleton.mp hs
    exact ⟨by simp [Spec.Orthogonal], fun _ => zero_le_one⟩
  · intro s hs
    obtain rfl := List.mem_singleton.mp hs
    exact ⟨by simp [Spec.Orthogonal], fun _ => zero_le_two⟩
  · norm_num
  · norm_num [Spec.programMoments, Spec.PointMasses.moments, Spec.PointMasses.mass]
  · intro mp h
    simp only [List.zip_cons_cons, List.zip_nil_left, List.mem_cons, List.not_mem_nil, or_false] at h
    rcases h with rfl | rfl
    · refine ⟨by norm_num, _, List.mem_singleton_self _, ![1 / 2, 0, 0], ?_, ?_⟩
      · simp only [dotProduct, Fin.sum_univ_three, Matrix.cons_val]; norm_num
      · funext i; fin_cases i <;> simp [Spec.rigid]
    · refine ⟨by norm_num, _, List.mem_singleton_self _, ![0, 1 / 2, 1 / 2], ?_, ?_⟩
      · simp only [dotProduct, Fin.sum_univ_three, Matrix.cons_val]; norm_num
      · funext i; fin_cases i <;> simp [Spec.rigid]
  · norm_num [Spec.PointMasses.mass, Spec.PointMasses.move]

/-- The arguments of C117_fails: the sum of two bodies without mass. -/
example : ∃ prog : BodyProgram ℚ, Spec.LeavesOk prog ∧ ¬ Spec.Balanced prog :=
  ⟨.add (.empty []) (.empty []), ⟨by simp [Spec.LeavesOk], by simp [Spec.LeavesOk]⟩, fun h => by
    rcases h.2.2 with h | h <;> exact h rfl⟩

end Rigeo
