import Verif.Model.Body
import Verif.Props.Closest
import Verif.Props.RigidBody
import Verif.Props.Optim2
import Verif.Props.Shapes3
import Verif.Props.Inertial2

/-!
# C69: the algebra of rigid bodies
-/

namespace Rigeo

open Matrix

variable {K : Type} [Field K] [LinearOrder K] [IsStrictOrderedRing K]

/-- `mapM` of a function that succeeds everywhere. -/
theorem mapM_forall₂ {α β : Type} {f : α → Py β} {P : α → β → Prop} (l : List α)
    (h : ∀ a ∈ l, ∃ b, f a = .ok b ∧ P a b) : ∃ bs, l.mapM f = .ok bs ∧ List.Forall₂ P l bs := by
  induction l with
  | nil => exact ⟨[], rfl, .nil⟩
  | cons a l ih =>
    obtain ⟨b, hb, hP⟩ := h a (by simp)
    obtain ⟨bs, hbs, hPs⟩ := ih fun a ha => h a (by simp [ha])
    refine ⟨b :: bs, ?_, .cons hP hPs⟩
    rw [List.mapM_cons, hb, hbs]
    rfl

/-! ### Addition -/

/-- C69: adding two bodies concatenates their shapes, so that the region is the union, and adds their parameters. -/
theorem C69_add (a b : RigidBody K) (hm : 0 < a.params.mass + b.params.mass) :
    ∃ c, a.add b = .ok c ∧ c.shapes = a.shapes ++ b.shapes ∧
      Spec.bodyRegion c.shapes = Spec.bodyRegion a.shapes ∪ Spec.bodyRegion b.shapes ∧
      c.params.mass = a.params.mass + b.params.mass ∧ c.params.h = a.params.h + b.params.h ∧
      c.params.H = a.params.H + b.params.H := by
  obtain ⟨r, hr, hJ, -⟩ := C15_add a.params b.params hm
  refine ⟨⟨a.shapes ++ b.shapes, r⟩, ?_, rfl, ?_, ?_⟩
  · unfold RigidBody.add
    rw [hr]
    rfl
  · ext p
    simp only [Spec.bodyRegion, Set.mem_ofPred_eq, List.mem_append, Set.mem_union]
    constructor
    · rintro ⟨s, hs | hs, hp⟩
      · exact .inl ⟨s, hs, hp⟩
      · exact .inr ⟨s, hs, hp⟩
    · rintro (⟨s, hs, hp⟩ | ⟨s, hs, hp⟩)
      · exact ⟨s, .inl hs, hp⟩
      · exact ⟨s, .inr hs, hp⟩
  · have : bordered r.H r.h r.h r.mass = bordered a.params.H a.params.h a.params.h a.params.mass +
      bordered b.params.H b.params.h b.params.h b.params.mass := hJ
    rw [bordered_add, bordered_inj] at this
    exact ⟨this.2.2.2, this.2.1, this.1⟩

/-- C69: the sum of two bodies that can be realized can be realized. -/
theorem C69_add_realizable (a b c : RigidBody K) (hc : a.add b = .ok c)
    (ha : Spec.Realizable (Spec.bodyRegion a.shapes) a.params.mass a.params.h a.params.H)
    (hb : Spec.Realizable (Spec.bodyRegion b.shapes) b.params.mass b.params.h b.params.H) :
    Spec.Realizable (Spec.bodyRegion c.shapes) c.params.mass c.params.h c.params.H := by
  have hm : 0 < a.params.mass + b.params.mass := by
    rcases (add_nonneg ha.mass_nonneg hb.mass_nonneg).lt_or_eq with h | h
    · exact h
    · unfold RigidBody.add IP.add IP.init vdiv at hc
      rw [← h] at hc
      simp [pyAssert, bind, Except.bind, pure, Except.pure] at hc
  obtain ⟨c', h1, -, h2, h3, h4, h5⟩ := C69_add a b hm
  rw [hc] at h1
  obtain rfl := Except.ok.inj h1
  rw [h2, h3, h4, h5]
  exact (ha.mono Set.subset_union_left).add (hb.mono Set.subset_union_right)

/-- C69: a body without parameters has zero parameters; adding two such bodies fails, whereas adding one to a body
with mass leaves the parameters of the latter unchanged. -/
theorem C69_massless (l l' : List (AnyShape K)) (a : RigidBody K) (ha : 0 < a.params.mass) :
    ∃ b b', RigidBody.init l = .ok b ∧ RigidBody.init l' = .ok b' ∧ b.shapes = l ∧ b.params.J = 0 ∧
      b.add b' = .error .nonfinite ∧
      a.add b = .ok ⟨a.shapes ++ l, a.params⟩ ∧ b.add a = .ok ⟨l ++ a.shapes, a.params⟩ := by
  obtain ⟨z, h1, h2, h3, h4, h5⟩ := C15_zero a.params ha
  refine ⟨⟨l, z⟩, ⟨l', z⟩, ?_, ?_, rfl, h2, ?_, ?_, ?_⟩
  · unfold RigidBody.init; rw [h1]; rfl
  · unfold RigidBody.init; rw [h1]; rfl
  · unfold RigidBody.add; rw [h5]; rfl
  · unfold RigidBody.add; rw [h3]; rfl
  · unfold RigidBody.add; rw [h4]; rfl

/-- C69: addition of bodies with mass is associative. -/
theorem C69_assoc (a b c : RigidBody K) (ha : 0 < a.params.mass) (hb : 0 < b.params.mass)
    (hc : 0 < c.params.mass) :
    (do let x ← a.add b; x.add c) = (do let y ← b.add c; a.add y) := by
  have h := C15_assoc a.params b.params c.params ha hb hc
  obtain ⟨x, hx, -⟩ := C15_add a.params b.params (by linarith)
  obtain ⟨y, hy, -⟩ := C15_add b.params c.params (by linarith)
  have e1 : a.add b = .ok ⟨a.shapes ++ b.shapes, x⟩ := by unfold RigidBody.add; rw [hx]; rfl
  have e2 : b.add c = .ok ⟨b.shapes ++ c.shapes, y⟩ := by unfold RigidBody.add; rw [hy]; rfl
  rw [hx, hy] at h
  have h' : x.add c.params = a.params.add y := h
  rw [e1, e2]
  show RigidBody.add ⟨a.shapes ++ b.shapes, x⟩ c = RigidBody.add a ⟨b.shapes ++ c.shapes, y⟩
  unfold RigidBody.add
  dsimp only
  rw [h', List.append_assoc]

/-- C69: Python's `sum` over a list of bodies with mass: the shapes of all bodies in their order, and the sum of the
parameters. -/
theorem C69_sum (bs : List (RigidBody K)) (hpos : ∀ b ∈ bs, 0 < b.params.mass) :
    (bs = [] → RigidBody.pySum bs = .ok (.inl 0)) ∧
    (bs ≠ [] → ∃ r, RigidBody.pySum bs = .ok (.inr r) ∧ r.shapes = bs.flatMap RigidBody.shapes ∧
      r.params.mass = (bs.map fun b => b.params.mass).sum ∧ r.params.h = (bs.map fun b => b.params.h).sum ∧
      r.params.H = (bs.map fun b => b.params.H).sum) := by
  refine ⟨fun h => by subst h; rfl, fun h => ?_⟩
  obtain ⟨b, bs, rfl⟩ := List.exists_cons_of_ne_nil h
  have key : ∀ (bs : List (RigidBody K)) (a : RigidBody K), 0 < a.params.mass → (∀ b ∈ bs, 0 < b.params.mass) →
      ∃ r, bs.foldlM (init := (.inr a : ℤ ⊕ RigidBody K)) (fun acc b =>
        match acc with
        | .inl k => (b.radd (.inl k)).map .inr
        | .inr a => (a.add b).map .inr) = (.ok (.inr r) : Py (ℤ ⊕ RigidBody K)) ∧
      r.shapes = a.shapes ++ bs.flatMap RigidBody.shapes ∧
      r.params.mass = a.params.mass + (bs.map fun b => b.params.mass).sum ∧
      r.params.h = a.params.h + (bs.map fun b => b.params.h).sum ∧
      r.params.H = a.params.H + (bs.map fun b => b.params.H).sum := by
    intro bs
    induction bs with
    | nil => intro a _ _; exact ⟨a, rfl, by simp, by simp, by simp, by simp⟩
    | cons b bs ih =>
      intro a ha hbs
      have hb := hbs b (by simp)
      obtain ⟨c, h1, h2, -, h3, h4, h5⟩ := C69_add a b (by linarith)
      obtain ⟨r, e1, e2, e3, e4, e5⟩ := ih c (by rw [h3]; linarith) fun b hb => hbs b (by simp [hb])
      refine ⟨r, ?_, ?_, ?_, ?_, ?_⟩
      · rw [List.foldlM_cons]
        dsimp only
        rw [h1]
        exact e1
      · rw [e2, h2, List.flatMap_cons, List.append_assoc]
      · rw [e3, h3, List.map_cons, List.sum_cons, _root_.add_assoc]
      · rw [e4, h4, List.map_cons, List.sum_cons, _root_.add_assoc]
      · rw [e5, h5, List.map_cons, List.sum_cons, _root_.add_assoc]
  obtain ⟨r, e1, e2, e3, e4, e5⟩ := key bs b (hpos b (by simp)) fun b hb => hpos b (by simp [hb])
  exact ⟨r, e1, by simpa using e2, by simpa using e3, by simpa using e4, by simpa using e5⟩

/-! ### Transforms -/

/-- A realizable set of moments moves with the region. -/
theorem _root_.Spec.Realizable.moved {n : ℕ} {S : Set (Fin n → K)} {m : K} {f : Fin n → K} {H : Matrix (Fin n) (Fin n) K}
    (h : Spec.Realizable S m f H) (R : Matrix (Fin n) (Fin n) K) (t : Fin n → K) :
    Spec.Realizable (Spec.moved R t S) m (R *ᵥ f + m • t)
      (R * H * Rᵀ + outer (R *ᵥ f) t + outer t (R *ᵥ f) + m • outer t t) := by
  refine h.induct (P := fun m f H => Spec.Realizable (Spec.moved R t S) m (R *ᵥ f + m • t)
      (R * H * Rᵀ + outer (R *ᵥ f) t + outer t (R *ᵥ f) + m • outer t t)) ?_ ?_ ?_
  · have := Spec.Realizable.zero (K := K) (Spec.moved R t S)
    convert this using 1
    · simp
    · ext i j; simp [outer_apply]
  · intro m f H m' f' H' h h'
    convert h.add h' using 1
    · rw [mulVec_add]; module
    · rw [Matrix.mul_add, Matrix.add_mul, mulVec_add]
      ext i j
      simp only [Matrix.add_apply, outer_apply, Matrix.smul_apply, Pi.add_apply, smul_eq_mul]
      ring
  · intro a p ha hp
    have := Spec.Realizable.point (S := Spec.moved R t S) ha (Set.mem_image_of_mem (Spec.rigid R t) hp)
    convert this using 1
    · rw [mulVec_smul, Spec.rigid, smul_add]
    · rw [Matrix.mul_smul, Matrix.smul_mul, mul_outer_mul, mulVec_smul, Spec.rigid]
      ext i j
      simp only [Matrix.add_apply, outer_apply, Matrix.smul_apply, Pi.add_apply, smul_eq_mul, Pi.smul_apply]
      ring

/-- The parameters move with the region. -/
theorem IP.transform_realizable (p q : IP K) (R : Matrix (Fin 3) (Fin 3) K) (t : Fin 3 → K)
    (hq : p.transform (some R) (some t) = .ok q) (S : Set (Fin 3 → K)) (hp : Spec.Realizable S p.mass p.h p.H) :
    Spec.Realizable (Spec.moved R t S) q.mass q.h q.H := by
  obtain ⟨q', h1, -, h2, h3, h4⟩ := C14_J p hp.mass_nonneg R t
  rw [hq] at h1
  obtain rfl := Except.ok.inj h1
  convert hp.moved R t using 1
  · rw [IP.h, IP.h, h2, h3, Spec.rigid, mulVec_smul, smul_add]
  · have e : q.H = q.Hc + q.mass • outer q.com q.com := by rw [IP.Hc, sub_add_cancel]
    rw [e, h4, h2, h3, IP.Hc, Matrix.mul_sub, Matrix.sub_mul, Matrix.mul_smul, Matrix.smul_mul, mul_outer_mul, IP.h,
      mulVec_smul, Spec.rigid]
    ext i j
    simp only [Matrix.add_apply, Matrix.sub_apply, outer_apply, Matrix.smul_apply, Pi.add_apply, smul_eq_mul, Pi.smul_apply]
    ring

/-- C69: a shape of any class moves as a point set. -/
theorem C69_shape_transform (cdd : CddLib K) (hcdd : Spec.IsCdd cdd) (s : AnyShape K) (hs : s.Valid)
    (R : Matrix (Fin 3) (Fin 3) K) (hR : Spec.Orthogonal R) (t : Fin 3 → K) :
    ∃ s', s.transform cdd (some R) (some t) = .ok s' ∧ s'.Valid ∧ Spec.region s' = Spec.moved R t (Spec.region s) := by
  cases s with
  | ellipsoid e =>
    obtain ⟨e', h1, -, h2⟩ := C33_ellipsoid e hs.2 R hR t
    have h3 := h1
    unfold Ellipsoid.transform at h3
    rw [Ellipsoid.init_ok _ hs.2] at h3
    refine ⟨.ellipsoid e', ?_, ?_, h2⟩
    · show (e.transform _ _).map _ = _
      rw [h1]; rfl
    · obtain rfl := Except.ok.inj h3
      exact ⟨hR.mul hs.1, hs.2⟩
  | box b =>
    obtain ⟨b', h1, -, h2⟩ := C33_box b hs.2 R hR t
    have h3 := h1
    unfold Box.transform at h3
    rw [Box.init_ok _ hs.2] at h3
    refine ⟨.box b', ?_, ?_, h2⟩
    · show (b.transform _ _).map _ = _
      rw [h1]; rfl
    · obtain rfl := Except.ok.inj h3
      exact ⟨hR.mul hs.1, hs.2⟩
  | poly P =>
    obtain ⟨P', h1, h2, -, h3⟩ := C33_poly_partial cdd hcdd P hs R hR t
    refine ⟨.poly P', ?_, h2, ?_⟩
    · show (P.transform _ _ _).map _ = _
      rw [h1]; rfl
    · have h4 : ∀ p, Spec.rigid R t p ∈ Spec.halfspaces P'.faceForm.faces ↔ p ∈ Spec.halfspaces P.faceForm.faces := by
        intro p
        rw [← Poly.contains_iff, ← Poly.contains_iff, h3]
      show Spec.halfspaces P'.faceForm.faces = Spec.rigid R t '' Spec.halfspaces P.faceForm.faces
      ext p
      constructor
      · intro hp
        have hpe : p = Spec.rigid R t (Rᵀ *ᵥ (p - t)) := (rigid_iff hR _ _ _).2 rfl
        refine ⟨_, (h4 _).1 ?_, hpe.symm⟩
        rwa [← hpe]
      · rintro ⟨q, hq, rfl⟩
        exact (h4 q).2 hq
  | cylinder c =>
    obtain ⟨c', h1, -, h2⟩ := C33_cylinder c hs.2.1 hs.2.2 R hR t
    have h3 := h1
    unfold Cylinder.transform at h3
    rw [Cylinder.init_ok _ _ hs.2.1 hs.2.2] at h3
    refine ⟨.cylinder c', ?_, ?_, h2⟩
    · show (c.transform _ _).map _ = _
      rw [h1]; rfl
    · obtain rfl := Except.ok.inj h3
      exact ⟨hR.mul hs.1, hs.2⟩
  | capsule c =>
    obtain ⟨c', h1, -, h2⟩ := C33_capsule_partial c hs.2.1 hs.2.2 R hR t
    have h3 := h1
    unfold Capsule.transform Cylinder.transform at h3
    rw [Cylinder.init_ok _ _ hs.2.1 hs.2.2] at h3
    refine ⟨.capsule c', ?_, ?_, h2⟩
    · show (c.transform _ _).map _ = _
      rw [h1]; rfl
    · obtain rfl := Except.ok.inj h3
      exact ⟨hR.mul hs.1, hs.2⟩

theorem bodyRegion_moved {R : Matrix (Fin 3) (Fin 3) K} {t : Fin 3 → K} {l l' : List (AnyShape K)}
    (h : List.Forall₂ (fun s s' => s'.Valid ∧ Spec.region s' = Spec.moved R t (Spec.region s)) l l') :
    Spec.bodyRegion l' = Spec.moved R t (Spec.bodyRegion l) := by
  have hcons : ∀ (s : AnyShape K) l, Spec.bodyRegion (s :: l) = Spec.region s ∪ Spec.bodyRegion l := by
    intro s l
    ext p
    simp [Spec.bodyRegion]
  induction h with
  | nil => simp [Spec.bodyRegion, Spec.moved]
  | cons h _ ih => rw [hcons, hcons, ih, h.2, Spec.moved, Spec.moved, Spec.moved, Set.image_union]

/-- C69: `transform` moves every shape, the region and the parameters by the same rigid motion; the moved body can be
realized if and only if the original one can. -/
theorem C69_transform (cdd : CddLib K) (hcdd : Spec.IsCdd cdd) (body : RigidBody K) (hs : ∀ s ∈ body.shapes, s.Valid)
    (hm : 0 ≤ body.params.mass) (R : Matrix (Fin 3) (Fin 3) K) (hR : Spec.Orthogonal R) (t : Fin 3 → K) :
    ∃ body', body.transform cdd (some R) (some t) = .ok body' ∧
      List.Forall₂ (fun s s' => s'.Valid ∧ Spec.region s' = Spec.moved R t (Spec.region s)) body.shapes body'.shapes ∧
      Spec.bodyRegion body'.shapes = Spec.moved R t (Spec.bodyRegion body.shapes) ∧
      body'.params.J = transformMatrix R t * body.params.J * (transformMatrix R t)ᵀ ∧
      (Spec.Realizable (Spec.bodyRegion body'.shapes) body'.params.mass body'.params.h body'.params.H ↔
        Spec.Realizable (Spec.bodyRegion body.shapes) body.params.mass body.params.h body.params.H) := by
  obtain ⟨l, hl, hf⟩ := mapM_forall₂ body.shapes fun s h => C69_shape_transform cdd hcdd s (hs s h) R hR t
  obtain ⟨q, hq, hJ, hqm, -⟩ := C14_J body.params hm R t
  have hreg := bodyRegion_moved hf
  refine ⟨⟨l, q⟩, ?_, hf, hreg, hJ, ?_, ?_⟩
  · unfold RigidBody.transform
    dsimp only [Option.getD_some]
    rw [hl, hq]
    rfl
  · intro h
    have hinv := (C14_inverse body.params hm R hR t).2
    rw [hq] at hinv
    have h5 := IP.transform_realizable q body.params Rᵀ (-(Rᵀ *ᵥ t)) hinv _ h
    rw [show Spec.moved Rᵀ (-(Rᵀ *ᵥ t)) (Spec.bodyRegion l) = Spec.bodyRegion body.shapes from ?_] at h5
    · exact h5
    rw [hreg, Spec.moved, Spec.moved, Set.image_image]
    convert Set.image_id _ using 2
    ext p
    have : Rᵀ *ᵥ (R *ᵥ p) = p := by rw [mulVec_mulVec, hR, one_mulVec]
    simp [Spec.rigid, mulVec_add, this]
  · intro h
    show Spec.Realizable (Spec.bodyRegion l) q.mass q.h q.H
    rw [hreg]
    exact IP.transform_realizable _ q R t hq _ h

/-- C69: the defaults of `transform` are the identity. -/
theorem C69_transform_default (cdd : CddLib K) (body : RigidBody K) (R : Matrix (Fin 3) (Fin 3) K) (t : Fin 3 → K) :
    body.transform cdd none none = body.transform cdd (some 1) (some 0) ∧
    body.transform cdd (some R) none = body.transform cdd (some R) (some 0) ∧
    body.transform cdd none (some t) = body.transform cdd (some 1) (some t) := ⟨rfl, rfl, rfl⟩

/-! ### Bounding ellipsoids -/

/-- C69: `mbes()` on a body of boxes, cylinders and polyhedra: every shape is replaced by an ellipsoid that contains
it, and the parameters stay, so a body that can be realized can be realized on the larger region. -/
theorem C69_mbes (eigh : Eigh) (heigh : Spec.IsEigh eigh) (lstsq : Lstsq) (hl : Spec.IsLstsq lstsq)
    (orth : Orth) (ho : Spec.IsOrth orth) (ns : NullSpace) (hn : Spec.IsNullSpace ns)
    (solver : (n : ℕ) → List (Fin n → ℝ) → Bool → MbeVars n)
    (hsol : ∀ n Q, mbeFeasible Q false (solver n Q false))
    (solver' : List (Matrix (Fin 3) (Fin 3) ℝ × (Fin 3 → ℝ)) → Bool → MbeeVars 3) (body : RigidBody ℝ)
    (hs : ∀ s ∈ body.shapes, s.Valid ∧ (∀ e, s ≠ .ellipsoid e) ∧ ∀ c, s ≠ .capsule c) :
    ∃ (es : List (Ellipsoid ℝ 3)) (r : MbesBody), body.mbes eigh lstsq orth ns solver solver' false = .ok r ∧
      r.shapes = es.map .numeric ∧ r.params = body.params ∧
      List.Forall₂ (fun s e => Spec.region s ⊆ Spec.region (.ellipsoid e)) body.shapes es ∧
      (Spec.Realizable (Spec.bodyRegion body.shapes) body.params.mass body.params.h body.params.H →
        Spec.Realizable (Spec.bodyRegion (es.map .ellipsoid)) r.params.mass r.params.h r.params.H) := by
  obtain ⟨l, hl, hf⟩ := mapM_forall₂ (f := fun s => s.mbe eigh lstsq orth ns solver solver' false)
    (P := fun s r => ∃ e : Ellipsoid ℝ 3, r = .numeric e ∧ Spec.region s ⊆ Spec.region (.ellipsoid e)) body.shapes (by
    intro s h
    obtain ⟨hv, h1, h2⟩ := hs s h
    cases s with
    | ellipsoid e => exact absurd rfl (h1 e)
    | capsule c => exact absurd rfl (h2 c)
    | box b =>
      obtain ⟨e, he, hsub⟩ := C35_box_mbe b hv.2 hv.1 false
      refine ⟨.numeric e, ?_, e, rfl, hsub⟩
      show (b.mbe false).map _ = _
      rw [he]; rfl
    | cylinder c =>
      obtain ⟨-, -, e, -, -, -, he, -, -, -, hsub, -⟩ := C35_cylinder c hv.1 hv.2.1 hv.2.2
      refine ⟨.numeric e, ?_, e, rfl, hsub⟩
      show (c.mbe false).map _ = _
      rw [he]; rfl
    | poly P =>
      obtain ⟨e, he, hsub⟩ := C48_poly eigh heigh lstsq hl orth ho ns hn solver P hv hsol
      exact ⟨.numeric e, he, e, rfl, fun p hp => hsub p ((P.contains_iff p).2 hp)⟩)
  obtain ⟨es, hes, hf'⟩ : ∃ es : List (Ellipsoid ℝ 3), l = es.map .numeric ∧
      List.Forall₂ (fun s e => Spec.region s ⊆ Spec.region (.ellipsoid e)) body.shapes es := by
    clear hl hs
    generalize body.shapes = L at hf
    induction hf with
    | nil => exact ⟨[], rfl, .nil⟩
    | cons h _ ih =>
      obtain ⟨e, rfl, hsub⟩ := h
      obtain ⟨es, rfl, hf'⟩ := ih
      exact ⟨e :: es, rfl, .cons hsub hf'⟩
  refine ⟨es, ⟨l, body.params⟩, ?_, hes, rfl, hf', fun h => h.mono ?_⟩
  · unfold RigidBody.mbes
    rw [hl]
    rfl
  · rintro p ⟨s, hs', hp⟩
    clear hl hs hes hf h
    generalize body.shapes = L at hf' hs'
    induction hf' with
    | nil => simp at hs'
    | @cons s0 e0 l1 l2 h1 _ ih =>
      rcases List.mem_cons.1 hs' with rfl | h2
      · exact ⟨.ellipsoid e0, by simp, h1 hp⟩
      · obtain ⟨s', h3, h4⟩ := ih h2
        exact ⟨s', by simp at h3 ⊢; exact .inr h3, h4⟩

/-- C69: `mbes` raises `TypeError` as soon as it reaches an ellipsoid, and never succeeds on a body with one. -/
theorem C69_mbes_ellipsoid (eigh : Eigh) (lstsq : Lstsq) (orth : Orth) (ns : NullSpace)
    (solver : (n : ℕ) → List (Fin n → ℝ) → Bool → MbeVars n)
    (solver' : List (Matrix (Fin 3) (Fin 3) ℝ × (Fin 3 → ℝ)) → Bool → MbeeVars 3) (body : RigidBody ℝ) (sphere : Bool)
    (l l' : List (AnyShape ℝ)) (e : Ellipsoid ℝ 3) (hb : body.shapes = l ++ .ellipsoid e :: l') :
    (∀ r, body.mbes eigh lstsq orth ns solver solver' sphere ≠ .ok r) ∧
    ((∀ s ∈ l, ∃ r, s.mbe eigh lstsq orth ns solver solver' sphere = .ok r) →
      body.mbes eigh lstsq orth ns solver solver' sphere = .error .type) := by
  have key : (∃ err, body.shapes.mapM (fun s => s.mbe eigh lstsq orth ns solver solver' sphere) = .error err) ∧
      ((∀ s ∈ l, ∃ r, s.mbe eigh lstsq orth ns solver solver' sphere = .ok r) →
        body.shapes.mapM (fun s => s.mbe eigh lstsq orth ns solver solver' sphere) = .error .type) := by
    rw [hb]
    clear hb
    induction l with
    | nil =>
      have : (AnyShape.ellipsoid e :: l').mapM (fun s => s.mbe eigh lstsq orth ns solver solver' sphere) = .error .type := by
        rw [List.mapM_cons]; rfl
      exact ⟨⟨_, this⟩, fun _ => this⟩
    | cons s l ih =>
      obtain ⟨⟨err, h1⟩, h2⟩ := ih
      rw [List.cons_append, List.mapM_cons, h1]
      constructor
      · cases h3 : s.mbe eigh lstsq orth ns solver solver' sphere with
        | error e' => exact ⟨e', rfl⟩
        | ok r => exact ⟨err, rfl⟩
      · intro h3
        obtain ⟨r, hr⟩ := h3 s (by simp)
        have h4 := h2 fun s hs => h3 s (by simp [hs])
        rw [h1] at h4
        obtain rfl := Except.error.inj h4
        rw [hr]
        rfl
  constructor
  · obtain ⟨err, h⟩ := key.1
    intro r
    unfold RigidBody.mbes
    rw [h]
    exact fun h => by cases h
  · intro h
    unfold RigidBody.mbes
    rw [key.2 h]
    rfl

/-- C69: `mbes(sphere=True)` on a body of boxes and cylinders replaces each of them by a sphere that contains it. -/
theorem C69_mbes_sphere (eigh : Eigh) (lstsq : Lstsq) (orth : Orth) (ns : NullSpace)
    (solver : (n : ℕ) → List (Fin n → ℝ) → Bool → MbeVars n)
    (solver' : List (Matrix (Fin 3) (Fin 3) ℝ × (Fin 3 → ℝ)) → Bool → MbeeVars 3) (body : RigidBody ℝ)
    (hs : ∀ s ∈ body.shapes, s.Valid ∧ ((∃ b, s = .box b) ∨ ∃ c, s = .cylinder c)) :
    ∃ r : MbesBody, body.mbes eigh lstsq orth ns solver solver' true = .ok r ∧ r.params = body.params ∧
      List.Forall₂ (fun s x => ∃ e : Ellipsoid ℝ 3, x = .numeric e ∧ Spec.region s ⊆ Spec.region (.ellipsoid e))
        body.shapes r.shapes := by
  obtain ⟨l, hl, hf⟩ := mapM_forall₂ (f := fun s => s.mbe eigh lstsq orth ns solver solver' true)
    (P := fun s r => ∃ e : Ellipsoid ℝ 3, r = .numeric e ∧ Spec.region s ⊆ Spec.region (.ellipsoid e)) body.shapes (by
    intro s h
    obtain ⟨hv, ⟨b, rfl⟩ | ⟨c, rfl⟩⟩ := hs s h
    · obtain ⟨e, he, hsub⟩ := C35_box_mbe b hv.2 hv.1 true
      refine ⟨.numeric e, ?_, e, rfl, hsub⟩
      show (b.mbe true).map _ = _
      rw [he]; rfl
    · obtain ⟨-, -, -, e, -, -, -, he, -, -, -, hsub⟩ := C35_cylinder c hv.1 hv.2.1 hv.2.2
      refine ⟨.numeric e, ?_, e, rfl, hsub⟩
      show (c.mbe true).map _ = _
      rw [he]; rfl)
  refine ⟨⟨l, body.params⟩, ?_, rfl, hf⟩
  unfold RigidBody.mbes
  rw [hl]
  rfl

/-! ### Examples -/

/-- A body that meets the hypotheses of the theorems: a box and a cylinder with a mass in the box. -/
example : ∃ body : RigidBody ℝ, body.shapes.length = 2 ∧ (∀ s ∈ body.shapes, s.Valid) ∧ 0 < body.params.mass ∧
    Spec.Realizable (Spec.bodyRegion body.shapes) body.params.mass body.params.h body.params.H ∧
    ∀ s ∈ body.shapes, s.Valid ∧ ((∃ b, s = .box b) ∨ ∃ c, s = .cylinder c) := by
  have h1 : (AnyShape.box ⟨fun _ => 1, 1, 0⟩ : AnyShape ℝ).Valid := ⟨Spec.Orthogonal.one, fun _ => zero_le_one⟩
  have h2 : (AnyShape.cylinder ⟨2, 1, 1, 0⟩ : AnyShape ℝ).Valid :=
    ⟨Spec.Orthogonal.one, by norm_num, by norm_num⟩
  refine ⟨⟨[.box ⟨fun _ => 1, 1, 0⟩, .cylinder ⟨2, 1, 1, 0⟩], ⟨1, ![1, 0, 0], outer ![1, 0, 0] ![1, 0, 0]⟩⟩, rfl, ?_,
    one_pos, ?_, ?_⟩
  · intro s hs
    simp only [List.mem_cons, List.not_mem_nil, or_false] at hs
    rcases hs with rfl | rfl
    · exact h1
    · exact h2
  · have := Spec.Realizable.point (K := ℝ) (S := Spec.bodyRegion [.box ⟨fun _ => 1, 1, 0⟩, .cylinder ⟨2, 1, 1, 0⟩])
      zero_le_one (p := ![1, 0, 0]) ⟨.box ⟨fun _ => 1, 1, 0⟩, by simp, ![1, 0, 0], by
        intro i; fin_cases i <;> simp, by simp [Spec.rigid]⟩
    simpa [IP.h] using this
  · intro s hs
    simp only [List.mem_cons, List.not_mem_nil, or_false] at hs
    rcases hs with rfl | rfl
    · exact ⟨h1, .inl ⟨_, rfl⟩⟩
    · exact ⟨h2, .inr ⟨_, rfl⟩⟩

/-- A solver as in `C69_mbes` exists. -/
example : ∃ solver : (n : ℕ) → List (Fin n → ℝ) → Bool → MbeVars n, ∀ n Q, mbeFeasible Q false (solver n Q false) := by
  have h : ∀ (n : ℕ) (Q : List (Fin n → ℝ)), ∃ x, mbeFeasible Q false x := by
    intro n Q
    obtain ⟨a, ha, hQ⟩ : ∃ a : ℝ, 0 < a ∧ ∀ p ∈ Q, a * norm2 p ≤ 1 := by
      induction Q with
      | nil => exact ⟨1, one_pos, by simp⟩
      | cons p Q ih =>
        obtain ⟨a, ha, hQ⟩ := ih
        have hp : 0 ≤ norm2 p := Real.sqrt_nonneg _
        refine ⟨min a (1 / (1 + norm2 p)), lt_min ha (by positivity), fun q hq => ?_⟩
        rcases List.mem_cons.1 hq with rfl | hq
        · calc min a (1 / (1 + norm2 q)) * norm2 q ≤ 1 / (1 + norm2 q) * norm2 q :=
                mul_le_mul_of_nonneg_right (min_le_right _ _) hp
            _ ≤ 1 := by
                rw [div_mul_eq_mul_div, one_mul, div_le_one (by positivity)]
                linarith
        · exact (mul_le_mul_of_nonneg_right (min_le_left _ _) (Real.sqrt_nonneg _)).trans (hQ q hq)
    refine ⟨⟨a • 1, 0, 0⟩, Spec.PSD.one.smul ha.le, ?_, fun p hp => ?_, by simp⟩
    · rw [det_smul, det_one, mul_one]
      positivity
    · have := hQ p hp
      simp only [smul_mulVec, one_mulVec, add_zero]
      unfold norm2 at this ⊢
      rw [smul_dotProduct, dotProduct_smul, smul_eq_mul, smul_eq_mul, ← mul_assoc, ← sq, Real.sqrt_mul (sq_nonneg a),
        Real.sqrt_sq ha.le]
      exact this
  exact ⟨fun n Q _ => (h n Q).choose, fun n Q => (h n Q).choose_spec⟩

end Rigeo
