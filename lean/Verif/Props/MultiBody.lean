import Verif.Spec.MultiBody
import Verif.Props.Body
import Verif.Lemmas.Cdd2

/-!
# Multibodies (C82) and the torque regressor (C83)
-/

namespace Rigeo

open Matrix

section Field
variable {K : Type} [Field K] [LinearOrder K] [IsStrictOrderedRing K]

/-! ## C82 -/

theorem hppfclToShape_ok (g : Geom K) (hg : Spec.GeomOk g) :
    ∃ s, hppfclToShape g = .ok s ∧ s.Valid ∧ Spec.region s = Spec.geomPoints g ∧ ∀ P, s ≠ .poly P := by
  have ho : Spec.Orthogonal (1 : Matrix (Fin 3) (Fin 3) K) := by simp [Spec.Orthogonal]
  have hr : ∀ y : Fin 3 → K, Spec.rigid 1 0 y = y := fun y => by simp [Spec.rigid]
  cases g with
  | convex => exact hg.elim
  | other => exact hg.elim
  | box h =>
    refine ⟨.box ⟨h, 1, 0⟩, ?_, ⟨ho, hg⟩, ?_, fun P => by simp⟩
    · have hh : ∀ i, 0 ≤ h i := hg
      simp [hppfclToShape, Box.init, pyAssert, hh, bind, Except.bind, pure, Except.pure, Except.map]
    · ext x
      simp only [Spec.region, Spec.geomPoints, Spec.box, hr, Set.mem_ofPred_eq]
      exact ⟨fun ⟨y, h1, h2⟩ => h2 ▸ h1, fun h => ⟨x, h, rfl⟩⟩
  | sphere r =>
    have h0 : (0 : K) ≤ r := hg
    refine ⟨.ellipsoid ⟨fun _ => r * 1, 1, 0⟩, ?_, ?_, ?_, fun P => by simp⟩
    · simp [hppfclToShape, Ellipsoid.sphere, Ellipsoid.init, pyAssert, h0, bind, Except.bind, pure, Except.pure, Except.map]
    · exact ⟨ho, fun _ => by simpa using h0⟩
    · ext x
      simp only [Spec.region, Spec.geomPoints, Spec.ellipsoid, hr, Set.mem_ofPred_eq, mul_one]
      constructor
      · rintro ⟨u, hu, rfl⟩
        have : (fun i => r * u i) ⬝ᵥ (fun i => r * u i) = r ^ 2 * (u ⬝ᵥ u) := by
          simp only [dotProduct, Fin.sum_univ_three]; ring
        rw [this]
        nlinarith [sq_nonneg r]
      · intro hx
        rcases h0.eq_or_lt with rfl | hpos
        · refine ⟨0, by simp, ?_⟩
          have : x ⬝ᵥ x = 0 := le_antisymm (by simpa using hx) (dot_self_nonneg x)
          rw [dot_self_eq_zero.mp this]
          ext i; simp
        · refine ⟨fun i => x i / r, ?_, ?_⟩
          · have : (fun i => x i / r) ⬝ᵥ (fun i => x i / r) = (x ⬝ᵥ x) / r ^ 2 := by
              simp only [dotProduct, Fin.sum_univ_three]; field_simp
            rw [this, div_le_one (by positivity)]
            exact hx
          · ext i; field_simp
  | cylinder l r =>
    have h0 : (0 : K) ≤ l ∧ 0 ≤ r := hg
    refine ⟨.cylinder ⟨2 * l, r, 1, 0⟩, ?_, ⟨ho, by linarith [h0.1], h0.2⟩, ?_, fun P => by simp⟩
    · simp [hppfclToShape, Cylinder.init, pyAssert, h0, bind, Except.bind, pure, Except.pure, Except.map]
    · ext x
      simp only [Spec.region, Spec.geomPoints, Spec.cylinder, hr, Set.mem_ofPred_eq]
      have e : 2 * l / 2 = l := by ring
      rw [e]
      exact ⟨fun ⟨y, h1, h2, h3⟩ => h3 ▸ ⟨h1, h2⟩, fun h => ⟨x, h.1, h.2, rfl⟩⟩

theorem transform_no_cdd (cdd cdd' : CddLib K) (s : AnyShape K) (hs : ∀ P, s ≠ .poly P) (R t) :
    s.transform cdd R t = s.transform cdd' R t := by
  cases s with
  | poly P => exact absurd rfl (hs P)
  | ellipsoid e => rfl
  | box b => rfl
  | cylinder c => rfl
  | capsule c => rfl

/-- C82: the shape made from a collision object is the geometry moved to its placement. -/
theorem C82_shape (cdd : CddLib K) (g : GeomObj K) (hg : Spec.GeomOk g.geometry) (hR : Spec.Orthogonal g.rotation) :
    ∃ s, pinToShape cdd g = .ok s ∧ s.Valid ∧
      Spec.region s = Spec.moved g.rotation g.translation (Spec.geomPoints g.geometry) := by
  obtain ⟨s, h1, h2, h3, h4⟩ := hppfclToShape_ok g.geometry hg
  obtain ⟨cdd', hcdd'⟩ := exists_cdd (K := K)
  obtain ⟨s', h5, h6, h7⟩ := C69_shape_transform cdd' hcdd' s h2 g.rotation hR g.translation
  refine ⟨s', ?_, h6, h3 ▸ h7⟩
  unfold pinToShape
  rw [h1]
  exact (transform_no_cdd cdd cdd' s h4 _ _).trans h5

/-- C82: a mesh raises `NotImplementedError`, an unknown geometry `ValueError`, negative dimensions `AssertionError`. -/
theorem C82_shape_errors (cdd : CddLib K) (g : GeomObj K) :
    (g.geometry = .convex → pinToShape cdd g = .error .notImplemented) ∧
    (g.geometry = .other → pinToShape cdd g = .error .value) ∧
    (g.geometry ≠ .convex → g.geometry ≠ .other → ¬ Spec.GeomOk g.geometry → pinToShape cdd g = .error .assertion) := by
  obtain ⟨geo, R, t, j⟩ := g
  refine ⟨?_, ?_, ?_⟩
  · rintro ⟨⟩; rfl
  · rintro ⟨⟩; rfl
  · intro h1 h2 h3
    unfold pinToShape
    cases geo with
    | convex => exact absurd rfl h1
    | other => exact absurd rfl h2
    | box h =>
      have : ¬ ∀ i, 0 ≤ h i := h3
      simp [hppfclToShape, Box.init, pyAssert, this, bind, Except.bind, Except.map]
    | sphere r =>
      have : ¬ 0 ≤ r := h3
      simp [hppfclToShape, Ellipsoid.sphere, Ellipsoid.init, pyAssert, this, bind, Except.bind, Except.map]
    | cylinder l r =>
      have : ¬ (0 ≤ l ∧ 0 ≤ r) := h3
      by_cases hl : 0 ≤ l
      · have hr : ¬ 0 ≤ r := fun hr => this ⟨hl, hr⟩
        simp [hppfclToShape, Cylinder.init, pyAssert, hl, hr, bind, Except.bind, Except.map]
      · simp [hppfclToShape, Cylinder.init, pyAssert, hl, bind, Except.bind, Except.map]

theorem pinParams_ok (x : PinInertia K) (hx : 0 ≤ x.mass) :
    ∃ p, x.params = .ok p ∧ p.mass = x.mass ∧ p.com = x.lever ∧ p.Ic = x.inertia ∧ p.I = Spec.originInertia x := by
  obtain ⟨p, hp⟩ := (C11_ok_iff x.mass none (some x.lever) none (some x.inertia) true).mpr (by simp [hx])
  obtain ⟨h1, h2, -, -, -, h5, -⟩ := C11_values _ _ _ _ _ _ p hp
  have hc := h2 _ rfl
  have hI := (h5 rfl).2 _ rfl
  refine ⟨p, hp, h1, hc, hI, ?_⟩
  rw [C11_parallel_axis, hI, hc, h1]
  rfl

/-- C82: the bodies of a `MultiBody`. Every joint that is the parent of some geometry has exactly one body: its shapes
are the geometries of that joint in order, moved to their placements, and its parameters have the mass, centre of mass
and inertia (about the centre of mass) of the link. Joints without geometry have no body. -/
theorem C82_bodies (cdd : CddLib K) (inertias : List (PinInertia K)) (geoms : List (GeomObj K))
    (hi : ∀ x ∈ inertias, 0 ≤ x.mass)
    (hg : ∀ g ∈ geoms, Spec.GeomOk g.geometry ∧ Spec.Orthogonal g.rotation ∧ g.parentJoint < inertias.length) :
    ∃ bodies, geomBodies cdd inertias geoms = .ok bodies ∧ (bodies.map Prod.fst).Nodup ∧
      (∀ j, j ∈ bodies.map Prod.fst ↔ ∃ g ∈ geoms, g.parentJoint = j) ∧
      ∀ j b, (j, b) ∈ bodies → ∃ x, inertias[j]? = some x ∧
        List.Forall₂ (fun g s => s.Valid ∧
            Spec.region s = Spec.moved g.rotation g.translation (Spec.geomPoints g.geometry))
          (geoms.filter fun g => g.parentJoint = j) b.shapes ∧
        b.params.mass = x.mass ∧ b.params.com = x.lever ∧ b.params.Ic = x.inertia := by
  induction geoms using List.reverseRecOn with
  | nil => exact ⟨[], rfl, by simp, by simp, by simp⟩
  | append_singleton gs g ih =>
    obtain ⟨bodies, h1, h2, h3, h4⟩ := ih fun g' hg' => hg g' (by simp [hg'])
    obtain ⟨hok, hR, hj⟩ := hg g (by simp)
    obtain ⟨s, hs1, hs2, hs3⟩ := C82_shape cdd g hok hR
    have hx : inertias[g.parentJoint]? = some inertias[g.parentJoint] := List.getElem?_eq_getElem hj
    obtain ⟨p, hp, hp1, hp2, hp3, -⟩ := pinParams_ok inertias[g.parentJoint] (hi _ (List.getElem_mem hj))
    have hfold : geomBodies cdd inertias (gs ++ [g]) = addGeom cdd inertias bodies g := by
      unfold geomBodies at h1 ⊢
      rw [List.foldlM_append, h1]
      simp [bind, Except.bind, pure, Except.pure]
      cases addGeom cdd inertias bodies g <;> rfl
    -- the new dictionary, in both cases
    have hstep : ∃ b : RigidBody K, addGeom cdd inertias bodies g = .ok (dictSet bodies g.parentJoint b) ∧
        List.Forall₂ (fun g s => s.Valid ∧
            Spec.region s = Spec.moved g.rotation g.translation (Spec.geomPoints g.geometry))
          ((gs ++ [g]).filter fun g' => g'.parentJoint = g.parentJoint) b.shapes ∧
        b.params.mass = inertias[g.parentJoint].mass ∧ b.params.com = inertias[g.parentJoint].lever ∧
        b.params.Ic = inertias[g.parentJoint].inertia := by
      have hfil : (gs ++ [g]).filter (fun g' => g'.parentJoint = g.parentJoint) =
          gs.filter (fun g' => g'.parentJoint = g.parentJoint) ++ [g] := by simp
      rw [hfil]
      unfold addGeom listGet
      rw [hx, hs1]
      cases hget : dictGet bodies g.parentJoint with
      | some b =>
        obtain ⟨x, hx', hsh, hm, hc, hI⟩ := h4 _ b ((dictGet_eq_some h2 _ _).mp hget)
        rw [hx] at hx'
        obtain rfl := Option.some.inj hx'
        exact ⟨⟨b.shapes ++ [s], b.params⟩, rfl, List.rel_append hsh (.cons ⟨hs2, hs3⟩ .nil), hm, hc, hI⟩
      | none =>
        have hno : gs.filter (fun g' => g'.parentJoint = g.parentJoint) = [] := by
          rw [List.filter_eq_nil_iff]
          intro g' hg' he
          exact (dictGet_eq_none _ _).mp hget ((h3 _).mpr ⟨g', hg', by simpa using he⟩)
        rw [hno]
        refine ⟨⟨[s], p⟩, ?_, .cons ⟨hs2, hs3⟩ .nil, hp1, hp2, hp3⟩
        simp only [bind, Except.bind, hp]
        rfl
    obtain ⟨b, hb, hb1, hb2, hb3, hb4⟩ := hstep
    refine ⟨_, hfold.trans hb, dictSet_nodup _ _ _ h2, fun j => ?_, fun j b' hjb => ?_⟩
    · have := dictGet_eq_none (dictSet bodies g.parentJoint b) j
      have h5 := dictGet_eq_none bodies j
      have h3j := h3 j
      rw [dictGet_set] at this
      by_cases hjj : g.parentJoint = j
      · simp only [hjj, if_true, reduceCtorEq, false_iff, not_not] at this
        exact ⟨fun _ => ⟨g, by simp, hjj⟩, fun _ => hjj ▸ this⟩
      · simp only [hjj, if_false] at this
        rw [h5, not_iff_not] at this
        rw [← this, h3j]
        constructor
        · rintro ⟨g', h, h'⟩; exact ⟨g', by simp [h], h'⟩
        · rintro ⟨g', h, h'⟩
          rcases List.mem_append.mp h with h | h
          · exact ⟨g', h, h'⟩
          · rw [List.mem_singleton] at h; exact absurd (h ▸ h') hjj
    · rw [← dictGet_eq_some (dictSet_nodup _ _ _ h2), dictGet_set] at hjb
      by_cases hjj : g.parentJoint = j
      · subst hjj
        simp only [if_true, Option.some.injEq] at hjb
        subst hjb
        exact ⟨_, hx, hb1, hb2, hb3, hb4⟩
      · simp only [hjj, if_false] at hjb
        have hfil : (gs ++ [g]).filter (fun g' => g'.parentJoint = j) = gs.filter (fun g' => g'.parentJoint = j) := by
          simp [hjj]
        rw [hfil]
        exact h4 j b' ((dictGet_eq_some h2 _ _).mp hjb)

/-- Two shapes on one joint, one on another, none on a third. -/
example : ∃ (inertias : List (PinInertia ℚ)) (geoms : List (GeomObj ℚ)), inertias.length = 3 ∧ geoms.length = 3 ∧
    (∀ x ∈ inertias, 0 ≤ x.mass) ∧
    ∀ g ∈ geoms, Spec.GeomOk g.geometry ∧ Spec.Orthogonal g.rotation ∧ g.parentJoint < inertias.length := by
  refine ⟨[⟨0, 0, 0⟩, ⟨1, 0, 1⟩, ⟨2, 1, 1⟩],
    [⟨.box 1, 1, 0, 2⟩, ⟨.sphere 2, !![0, -1, 0; 1, 0, 0; 0, 0, 1], 1, 1⟩, ⟨.cylinder 1 2, 1, 0, 2⟩], rfl, rfl, ?_, ?_⟩
  · simp
  · have h1 : Spec.Orthogonal (1 : Matrix (Fin 3) (Fin 3) ℚ) := by simp [Spec.Orthogonal]
    have h2 : Spec.Orthogonal (!![0, -1, 0; 1, 0, 0; 0, 0, 1] : Matrix (Fin 3) (Fin 3) ℚ) := by
      ext i j; fin_cases i <;> fin_cases j <;> simp [Matrix.mul_apply, Fin.sum_univ_three]
    simp [Spec.GeomOk, h1, h2]

/-- C82: construction. It succeeds when the tool link (if given) is the name of a frame, the gravity (if given) has
three entries and the geometries are supported; an unknown tool link raises `ValueError`, a gravity of any other
length `AssertionError`. -/
theorem C82_init (cdd : CddLib K) (model : PinModel K) (tool : Option String) (gravity : Option (List K)) :
    (∀ bodies, geomBodies cdd model.inertias model.geoms = .ok bodies → (∀ n ∈ tool, n ∈ model.frameNames) →
      (∀ v ∈ gravity, v.length = 3) → ∃ mb, MultiBody.init cdd model tool gravity = .ok mb ∧ mb.bodies = bodies ∧
        (∀ n, tool = some n → ∃ i, mb.toolIdx = some i ∧ model.frameNames[i]? = some n) ∧
        (tool = none → mb.toolIdx = none) ∧
        (∀ v, gravity = some v → List.ofFn mb.model.gravity = v) ∧
        (gravity = none → mb.model.gravity = model.gravity)) ∧
    ((∃ n ∈ tool, n ∉ model.frameNames) → MultiBody.init cdd model tool gravity = .error .value) ∧
    ((∀ n ∈ tool, n ∈ model.frameNames) → (∃ v ∈ gravity, v.length ≠ 3) →
      MultiBody.init cdd model tool gravity = .error .assertion) := by
  have htool : (∀ n ∈ tool, n ∈ model.frameNames) → ∃ t, MultiBody.toolIndex model tool = .ok t ∧
      (∀ n, tool = some n → ∃ i, t = some i ∧ model.frameNames[i]? = some n) ∧ (tool = none → t = none) := by
    intro h
    cases tool with
    | none => exact ⟨none, rfl, by simp, by simp⟩
    | some n =>
      have hn := h n rfl
      refine ⟨some (model.frameNames.idxOf n), ?_, ?_, by simp⟩
      · simp [MultiBody.toolIndex, MultiBody.nameIndex, hn, Except.map]
      · rintro n' ⟨⟩
        refine ⟨_, rfl, ?_⟩
        rw [List.getElem?_eq_getElem (List.idxOf_lt_length_of_mem hn), List.getElem_idxOf]
  refine ⟨fun bodies hb ht hv => ?_, ?_, fun ht hv => ?_⟩
  · obtain ⟨t, h1, h2, h3⟩ := htool ht
    unfold MultiBody.init
    rw [h1]
    cases gravity with
    | none =>
      refine ⟨⟨model, t, bodies⟩, ?_, rfl, h2, h3, by simp, by simp⟩
      simp [MultiBody.setGravity, bind, Except.bind, hb, pure, Except.pure]
    | some v =>
      obtain ⟨x, y, z, rfl⟩ := List.length_eq_three.mp (hv v rfl)
      refine ⟨⟨{ model with gravity := ![x, y, z] }, t, bodies⟩, ?_, rfl, h2, h3, ?_, by simp⟩
      · simp [MultiBody.setGravity, bind, Except.bind, hb, pure, Except.pure]
      · rintro v' ⟨⟩; simp [List.ofFn_succ]
  · rintro ⟨n, hn, hn'⟩
    cases tool with
    | none => simp at hn
    | some m =>
      obtain rfl : m = n := by simpa using hn
      simp [MultiBody.init, MultiBody.toolIndex, MultiBody.nameIndex, hn', Except.map, bind, Except.bind]
  · obtain ⟨t, h1, -, -⟩ := htool ht
    obtain ⟨v, hv, hl⟩ := hv
    obtain rfl : gravity = some v := by simpa using hv
    have : MultiBody.setGravity model (some v) = .error .assertion := by
      match v, hl with
      | [], _ => rfl
      | [_], _ => rfl
      | [_, _], _ => rfl
      | [_, _, _], h => simp at h
      | _ :: _ :: _ :: _ :: _, _ => rfl
    unfold MultiBody.init
    rw [h1, this]
    rfl

theorem mapM_eq_ok_iff {α β : Type} {f : α → Py β} (l : List α) (bs : List β) :
    l.mapM f = .ok bs ↔ List.Forall₂ (fun a b => f a = .ok b) l bs := by
  induction l generalizing bs with
  | nil =>
    rw [List.mapM_nil, List.forall₂_nil_left_iff]
    exact ⟨fun h => (Except.ok.inj h).symm, fun h => h ▸ rfl⟩
  | cons a l ih =>
    rw [List.mapM_cons, List.forall₂_cons_left_iff]
    constructor
    · intro h
      cases ha : f a with
      | error e => rw [ha] at h; cases h
      | ok b =>
        cases hl : l.mapM f with
        | error e => rw [ha, hl] at h; cases h
        | ok bs' =>
          rw [ha, hl] at h
          exact ⟨b, bs', rfl, (ih bs').mp hl, (Except.ok.inj h).symm⟩
    · rintro ⟨b, bs', hb, hbs, rfl⟩
      rw [hb, (ih bs').mpr hbs]
      rfl

theorem forall₂_comp_iff {α β γ : Type} {R : α → β → Prop} {S : β → γ → Prop} (l : List α) (cs : List γ) :
    (∃ bs, List.Forall₂ R l bs ∧ List.Forall₂ S bs cs) ↔ List.Forall₂ (fun a c => ∃ b, R a b ∧ S b c) l cs := by
  induction l generalizing cs with
  | nil =>
    rw [List.forall₂_nil_left_iff]
    constructor
    · rintro ⟨bs, h1, h2⟩
      rw [List.forall₂_nil_left_iff] at h1
      subst h1
      rwa [List.forall₂_nil_left_iff] at h2
    · rintro rfl; exact ⟨[], .nil, .nil⟩
  | cons a l ih =>
    constructor
    · rintro ⟨bs, h1, h2⟩
      obtain ⟨b, bs', hb, hbs, rfl⟩ := List.forall₂_cons_left_iff.mp h1
      obtain ⟨c, cs', hc, hcs, rfl⟩ := List.forall₂_cons_left_iff.mp h2
      exact .cons ⟨b, hb, hc⟩ ((ih cs').mp ⟨bs', hbs, hcs⟩)
    · intro h
      obtain ⟨c, cs', ⟨b, hb, hc⟩, hcs, rfl⟩ := List.forall₂_cons_left_iff.mp h
      obtain ⟨bs', h1, h2⟩ := (ih cs').mpr hcs
      exact ⟨b :: bs', .cons hb h1, .cons hc h2⟩

theorem mapM_error_of {α β : Type} {f : α → Py β} {e : PyErr} (l : List α)
    (h : ∀ a ∈ l, (∃ b, f a = .ok b) ∨ f a = .error e) (hno : ∃ a ∈ l, f a = .error e) :
    l.mapM f = .error e := by
  induction l with
  | nil => simp at hno
  | cons a l ih =>
    rw [List.mapM_cons]
    rcases h a (by simp) with ⟨b, hb⟩ | hb
    · have : ∃ a ∈ l, f a = .error e := by
        obtain ⟨a', ha', he⟩ := hno
        rcases List.mem_cons.mp ha' with rfl | ha'
        · rw [hb] at he; cases he
        · exact ⟨a', ha', he⟩
      rw [hb, ih (fun a ha => h a (by simp [ha])) this]
      rfl
    · rw [hb]; rfl

/-- C82: `get_bodies` returns the bodies of the joints asked for, in that order. Any unknown name raises `ValueError`,
and if all names are known, a joint without geometry raises `KeyError`. -/
theorem C82_get_bodies (mb : MultiBody K) (hmb : (mb.bodies.map Prod.fst).Nodup) (joints : List (ℕ ⊕ String)) :
    (∀ bs, mb.getBodies joints = .ok bs ↔ List.Forall₂ (fun j b => ∃ i, (i, b) ∈ mb.bodies ∧
      (j = .inl i ∨ ∃ name, j = .inr name ∧ name ∈ mb.model.jointNames ∧ i = mb.model.jointNames.idxOf name))
      joints bs) ∧
    ((∃ name, .inr name ∈ joints ∧ name ∉ mb.model.jointNames) → mb.getBodies joints = .error .value) ∧
    ((∀ name, .inr name ∈ joints → name ∈ mb.model.jointNames) →
      (∀ bs, mb.getBodies joints ≠ .ok bs) → mb.getBodies joints = .error .key) := by
  have hres : ∀ j i, mb.resolveJointIndex j = .ok i ↔
      (j = .inl i ∨ ∃ name, j = .inr name ∧ name ∈ mb.model.jointNames ∧ i = mb.model.jointNames.idxOf name) := by
    intro j i
    cases j with
    | inl k => simp [MultiBody.resolveJointIndex]
    | inr n =>
      simp only [MultiBody.resolveJointIndex, MultiBody.nameIndex]
      by_cases hn : n ∈ mb.model.jointNames
      · simp [hn, eq_comm]
      · simp [hn]
  have hitem : ∀ i b, dictItem mb.bodies i = .ok b ↔ (i, b) ∈ mb.bodies := by
    intro i b
    rw [← dictGet_eq_some hmb]
    unfold dictItem
    cases dictGet mb.bodies i <;> simp
  have hitem' : ∀ i, (∃ b, dictItem mb.bodies i = .ok b) ∨ dictItem mb.bodies i = .error .key := by
    intro i
    unfold dictItem
    cases dictGet mb.bodies i <;> simp
  have hok : ∀ bs, mb.getBodies joints = .ok bs ↔
      ∃ is, joints.mapM mb.resolveJointIndex = .ok is ∧ is.mapM (dictItem mb.bodies) = .ok bs := by
    intro bs
    unfold MultiBody.getBodies
    cases joints.mapM mb.resolveJointIndex with
    | error e => simp [bind, Except.bind]
    | ok is => simp [bind, Except.bind]
  refine ⟨fun bs => ?_, fun ⟨name, hmem, hn⟩ => ?_, fun hall hno => ?_⟩
  · rw [hok]
    simp only [mapM_eq_ok_iff]
    rw [forall₂_comp_iff]
    refine iff_of_eq (congrArg (fun R => List.Forall₂ R joints bs) ?_)
    funext j b
    refine propext (exists_congr fun i => ?_)
    rw [hres, hitem, and_comm]
  · have : joints.mapM mb.resolveJointIndex = .error .value := by
      refine mapM_error_of joints (fun j _ => ?_) ⟨.inr name, hmem, by
        simp [MultiBody.resolveJointIndex, MultiBody.nameIndex, hn]⟩
      cases j with
      | inl k => exact .inl ⟨k, rfl⟩
      | inr n =>
        simp only [MultiBody.resolveJointIndex, MultiBody.nameIndex]
        by_cases hn : n ∈ mb.model.jointNames <;> simp [hn]
    unfold MultiBody.getBodies
    rw [this]
    rfl
  · obtain ⟨is, his, -⟩ := mapM_forall₂ (P := fun _ _ => True) joints (f := mb.resolveJointIndex) fun j hj => by
      cases j with
      | inl k => exact ⟨k, rfl, trivial⟩
      | inr n => exact ⟨mb.model.jointNames.idxOf n, if_pos (hall n hj), trivial⟩
    have e : mb.getBodies joints = is.mapM (dictItem mb.bodies) := by
      unfold MultiBody.getBodies
      rw [his]
      rfl
    rw [e]
    refine mapM_error_of is (fun i _ => hitem' i) ?_
    by_contra hc
    obtain ⟨bs, hbs, -⟩ := mapM_forall₂ (P := fun _ _ => True) is (f := dictItem mb.bodies) fun i hi => by
      rcases hitem' i with ⟨b, hb⟩ | h
      · exact ⟨b, hb, trivial⟩
      · exact absurd ⟨i, hi, h⟩ hc
    exact hno bs (e.trans hbs)

/-- The tool and joint names may be given by name or by number. -/
example : ∃ mb : MultiBody ℚ, (mb.bodies.map Prod.fst).Nodup ∧ mb.bodies.length = 2 ∧
    mb.getBodies [.inl 2, .inr "a"] = .ok [⟨[], ⟨2, 0, 0⟩⟩, ⟨[], ⟨1, 0, 0⟩⟩] ∧
    mb.getBodies [.inl 3, .inr "c"] = .error .value ∧ mb.getBodies [.inl 0, .inr "b"] = .error .key :=
  ⟨⟨⟨["universe", "a", "b"], [], [], [], 0⟩, none, [(2, ⟨[], ⟨2, 0, 0⟩⟩), (1, ⟨[], ⟨1, 0, 0⟩⟩)]⟩, by decide, rfl, rfl,
    rfl, rfl⟩

/-! ## C83 -/

/-- The position of the parameter stored at position `k` of a rigeo parameter vector in pinocchio's vector. -/
def _root_.Spec.pinPosition : Fin 10 → Fin 10 := ![0, 1, 2, 3, 4, 5, 7, 6, 8, 9]

theorem jointTorqueRegressor_apply {nr nb : ℕ} (Ypin : Matrix (Fin nr) (Fin (nb * 10)) K) (nv : ℕ) (hnv : nv ≤ nb) :
    ∃ Y, MultiBody.jointTorqueRegressor nv Ypin = .ok Y ∧ ∀ r (i : Fin nb) (k : Fin 10),
      Y r (finProdFinEquiv (i, k)) =
        Ypin r (finProdFinEquiv (i, if (i : ℕ) < nv then Spec.pinPosition k else k)) := by
  induction nv with
  | zero => exact ⟨Ypin, rfl, by simp⟩
  | succ nv ih =>
    obtain ⟨Y, hY, hY'⟩ := ih (by omega)
    have hlt : nv * 10 + 7 < nb * 10 := by omega
    have h6 : (⟨nv * 10 + 6, by omega⟩ : Fin (nb * 10)) = finProdFinEquiv ((⟨nv, by omega⟩ : Fin nb), (6 : Fin 10)) := by
      apply Fin.ext; simp [finProdFinEquiv]; omega
    have h7 : (⟨nv * 10 + 7, by omega⟩ : Fin (nb * 10)) = finProdFinEquiv ((⟨nv, by omega⟩ : Fin nb), (7 : Fin 10)) := by
      apply Fin.ext; simp [finProdFinEquiv]; omega
    have hstep : MultiBody.jointTorqueRegressor (nv + 1) Ypin = MultiBody.swapColumns Ypin Y nv := by
      unfold MultiBody.jointTorqueRegressor at hY ⊢
      rw [List.range_succ, List.foldlM_append, hY]
      simp [bind, Except.bind, pure, Except.pure]
      cases MultiBody.swapColumns Ypin Y nv <;> rfl
    refine ⟨_, hstep.trans (dif_pos hlt), fun r i k => ?_⟩
    simp only [h6, h7]
    rw [Matrix.updateCol_apply, Matrix.updateCol_apply, hY']
    simp only [EmbeddingLike.apply_eq_iff_eq, Prod.mk.injEq]
    by_cases hi : (i : ℕ) = nv
    · have hlt' : nv < nb := by omega
      obtain rfl : i = ⟨nv, hlt'⟩ := Fin.ext hi
      fin_cases k <;> simp [Spec.pinPosition]
    · have hne : i ≠ ⟨nv, by omega⟩ := fun h => hi (by rw [h])
      have : ((i : ℕ) < nv + 1) ↔ (i : ℕ) < nv := by omega
      simp [hne, this]

theorem stack_apply {nb : ℕ} (θ : Fin nb → Fin 10 → K) (i : Fin nb) (k : Fin 10) :
    Spec.stack θ (finProdFinEquiv (i, k)) = θ i k := by
  have := finProdFinEquiv.symm_apply_apply (i, k)
  simp only [finProdFinEquiv, Equiv.coe_fn_symm_mk, Prod.mk.injEq] at this
  unfold Spec.stack
  exact congr (congrArg θ this.1) this.2

theorem stack_single {nb : ℕ} (i : Fin nb) (k : Fin 10) :
    Spec.stack (Pi.single i (Pi.single k (1 : K))) = Pi.single (finProdFinEquiv (i, k)) 1 := by
  ext c
  obtain ⟨⟨a, b⟩, rfl⟩ := finProdFinEquiv.surjective c
  rw [stack_apply]
  by_cases ha : a = i
  · subst ha
    by_cases hb : b = k
    · subst hb; simp
    · simp [hb]
  · simp [ha]

/-- C83: with as many velocities as bodies, the regressor returned maps stacked parameter vectors in the order of the
library to exactly what pinocchio's regressor makes of the same parameters in pinocchio's order. -/
theorem C83_product {nr nb : ℕ} (Ypin : Matrix (Fin nr) (Fin (nb * 10)) K) :
    ∃ Y, MultiBody.jointTorqueRegressor nb Ypin = .ok Y ∧
      ∀ θ θpin : Fin nb → Fin 10 → K,
        (∀ i, θ i = ![θpin i 0, θpin i 1, θpin i 2, θpin i 3, θpin i 4, θpin i 5, θpin i 7, θpin i 6, θpin i 8, θpin i 9]) →
        Y *ᵥ Spec.stack θ = Ypin *ᵥ Spec.stack θpin := by
  obtain ⟨Y, h1, h2⟩ := jointTorqueRegressor_apply Ypin nb le_rfl
  refine ⟨Y, h1, fun θ θpin h => ?_⟩
  ext r
  simp only [mulVec, dotProduct]
  rw [← finProdFinEquiv.sum_comp, ← finProdFinEquiv.sum_comp, Fintype.sum_prod_type, Fintype.sum_prod_type]
  refine Finset.sum_congr rfl fun i _ => ?_
  simp only [stack_apply, h2, i.isLt, if_true, h i]
  simp only [Fin.sum_univ_succ, Spec.pinPosition]
  simp
  ring

/-- C83: the joint torques are the regressor times the stacked parameter vectors of the bodies, provided that
pinocchio's own regressor has that property for its inertias. -/
theorem C83_torques {nr nb : ℕ} (Ypin : Matrix (Fin nr) (Fin (nb * 10)) K) (links : Fin nb → PinInertia K)
    (hm : ∀ i, 0 ≤ (links i).mass) (τ : Fin nr → K) (hτ : τ = Ypin *ᵥ Spec.stack fun i => Spec.pinVec (links i)) :
    ∃ Y, ∃ params : Fin nb → IP K, MultiBody.jointTorqueRegressor nb Ypin = .ok Y ∧
      (∀ i, (links i).params = .ok (params i)) ∧ Y *ᵥ Spec.stack (fun i => (params i).vec) = τ := by
  choose p hp h1 h2 h3 h4 using fun i => pinParams_ok (links i) (hm i)
  obtain ⟨Y, hY, hmul⟩ := C83_product Ypin
  refine ⟨Y, p, hY, hp, ?_⟩
  rw [hτ]
  refine hmul _ _ fun i => ?_
  ext k
  fin_cases k <;> simp [IP.vec, IP.h, Spec.pinVec, h1, h2, h4]

/-- C83: with more velocities than bodies (for instance a free floating base) the loop runs past the last column:
`IndexError`. -/
theorem C83_index_error {nr nb : ℕ} (Ypin : Matrix (Fin nr) (Fin (nb * 10)) K) (nv : ℕ) (hnv : nb < nv) :
    MultiBody.jointTorqueRegressor nv Ypin = .error .index := by
  obtain ⟨Y, hY, -⟩ := jointTorqueRegressor_apply Ypin nb le_rfl
  obtain ⟨k, rfl⟩ := Nat.exists_eq_add_of_lt hnv
  unfold MultiBody.jointTorqueRegressor at hY ⊢
  rw [add_assoc, List.range_add, List.foldlM_append, hY, List.range_succ_eq_map]
  simp only [List.map_cons, List.foldlM_cons, bind, Except.bind, add_zero]
  have : MultiBody.swapColumns Ypin Y nb = .error .index := dif_neg (by omega)
  rw [this]

/-- C83: with fewer velocities than bodies the blocks of the last bodies keep pinocchio's order, so the result is
wrong for some parameters whenever pinocchio's regressor distinguishes `Ixz` from `Iyy` of such a body. -/
theorem C83_too_few {nr nb : ℕ} (Ypin : Matrix (Fin nr) (Fin (nb * 10)) K) (nv : ℕ) (i : Fin nb) (hi : nv ≤ i) (r : Fin nr)
    (hne : Ypin r (finProdFinEquiv (i, 6)) ≠ Ypin r (finProdFinEquiv (i, 7))) :
    ∃ Y, MultiBody.jointTorqueRegressor nv Ypin = .ok Y ∧ ∃ θ θpin : Fin nb → Fin 10 → K,
      (∀ i, θ i = ![θpin i 0, θpin i 1, θpin i 2, θpin i 3, θpin i 4, θpin i 5, θpin i 7, θpin i 6, θpin i 8, θpin i 9]) ∧
      Y *ᵥ Spec.stack θ ≠ Ypin *ᵥ Spec.stack θpin := by
  obtain ⟨Y, hY, hY'⟩ := jointTorqueRegressor_apply Ypin nv (by omega)
  refine ⟨Y, hY, Pi.single i (Pi.single 7 1), Pi.single i (Pi.single 6 1), fun j => ?_, fun h => hne ?_⟩
  · by_cases hj : j = i
    · subst hj
      ext k
      fin_cases k <;> simp [Pi.single_apply]
    · ext k
      fin_cases k <;> simp [hj]
  · have := congrFun h r
    rw [stack_single, stack_single, mulVec_single_one, mulVec_single_one, Matrix.col_apply, Matrix.col_apply, hY',
      if_neg (by omega)] at this
    exact this.symm

/-- Pinocchio's regressor is arbitrary: one body and one row that tells `Ixz` from `Iyy`. -/
example : ∃ Y, MultiBody.jointTorqueRegressor 1 (Matrix.of fun (_ : Fin 1) (c : Fin (1 * 10)) => ((c : ℕ) : ℚ)) = .ok Y ∧
    Y 0 6 = 7 ∧ Y 0 7 = 6 ∧ Y 0 8 = 8 :=
  ⟨_, rfl, by decide +kernel, by decide +kernel, by decide +kernel⟩

end Field
end Rigeo
