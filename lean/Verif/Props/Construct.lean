import Verif.Spec.Construct
import Verif.Lemmas.NdArray

/-!
# C112: array arguments of the constructors
-/

namespace Rigeo

open Matrix NdArray Spec

theorem mem_allIndices : ∀ (s i : List ℕ), i ∈ allIndices s ↔ InShape i s
  | [], i => by
    simp only [allIndices, List.mem_singleton, InShape, List.forall₂_nil_right_iff]
  | n :: s, i => by
    simp only [allIndices, List.mem_flatMap, List.mem_range, List.mem_map, InShape, List.forall₂_cons_right_iff]
    constructor
    · rintro ⟨k, hk, j, hj, rfl⟩
      exact ⟨k, j, hk, (mem_allIndices s j).mp hj, rfl⟩
    · rintro ⟨k, j, hk, hj, rfl⟩
      exact ⟨k, hk, j, (mem_allIndices s j).mpr hj, rfl⟩

section Field
variable {K : Type} [Field K] [LinearOrder K]

omit [Field K] in
theorem allNonneg_iff [Zero K] (a : NdArray K) : a.allNonneg = true ↔ Nonnegative a := by
  simp only [allNonneg, List.all_eq_true, mem_allIndices, decide_eq_true_eq, Nonnegative]

omit [LinearOrder K] in
theorem rotationArray_shape (r : Option (ArrayArg K)) (n : ℕ) : (rotationArray r n).shape = [n, n] ↔ RotationShape n r := by
  rcases r with - | - | a <;> simp [rotationArray, RotationShape, ofMatrix, ArrayArg.toArray]

omit [LinearOrder K] in
theorem positionArray_shape (c : Option (ArrayArg K)) (n : ℕ) : (positionArray c n).shape = [n] ↔ PositionShape n c := by
  rcases c with - | - | a <;> simp [positionArray, PositionShape, ofVec, ArrayArg.toArray]

/-- C112: `Ellipsoid(half_extents, rotation, center)` returns exactly if the half extents are nonnegative and have at least one axis, the
rotation is left out or has shape `(n, n)`, and the center is left out, has shape `(n,)`, or is a number and `n` is 1; here `n` is the
length of the first axis. The arrays are stored as they are. -/
theorem C112_ellipsoid (h : ArrayArg K) (R c : Option (ArrayArg K)) (e : PoseArrays K) :
    Ellipsoid.initArray h R c = .ok e ↔ Nonnegative h.toArray1 ∧ ∃ n s, h.toArray1.shape = n :: s ∧ RotationShape n R ∧
      (PositionShape n c ∨ n = 1 ∧ ∃ x, c = some (.scalar x)) ∧ e = ⟨h.toArray1, rotationArray R n, centerArray c n⟩ := by
  have hc : ∀ n, (centerArray c n).shape = [n] ↔ (PositionShape n c ∨ n = 1 ∧ ∃ x, c = some (.scalar x)) := by
    intro n
    rcases c with - | x | a <;> simp [centerArray, PositionShape, ofVec, ArrayArg.toArray1, eq_comm]
  unfold Ellipsoid.initArray
  by_cases hn : Nonnegative h.toArray1
  · simp only [(allNonneg_iff _).mpr hn, pyAssert, if_true, bind, Except.bind, firstLength]
    rcases hs : h.toArray1.shape with - | ⟨n, s⟩
    · simp
    · dsimp only
      by_cases hR : RotationShape n R
      · rw [(rotationArray_shape R n).mpr hR]
        by_cases hcn : (centerArray c n).shape = [n]
        · simp only [hcn, beq_self_eq_true, if_true, pure, Except.pure, Except.ok.injEq]
          constructor
          · rintro rfl
            exact ⟨hn, n, s, rfl, hR, (hc n).mp hcn, rfl⟩
          · rintro ⟨-, n', s', e1, -, -, rfl⟩
            cases e1
            rfl
        · have : ((centerArray c n).shape == [n]) = false := by simpa using hcn
          simp only [this, beq_self_eq_true, if_true]
          constructor
          · intro h; cases h
          · rintro ⟨-, n', s', e1, -, h2, -⟩
            cases e1
            exact absurd ((hc n).mpr h2) hcn
      · have : ((rotationArray R n).shape == [n, n]) = false := by simpa using fun h => hR ((rotationArray_shape R n).mp h)
        simp only [this]
        constructor
        · intro h; cases h
        · rintro ⟨-, n', s', e1, h1, -⟩
          cases e1
          exact absurd h1 hR
  · have : h.toArray1.allNonneg = false := by
      rw [Bool.eq_false_iff]
      exact fun h => hn ((allNonneg_iff _).mp h)
    simp only [this, pyAssert, bind, Except.bind]
    constructor
    · intro h; cases h
    · exact fun h => absurd h.1 hn

/-- C112: otherwise it raises `AssertionError`, or `IndexError` for nonnegative half extents in an array without axes. -/
theorem C112_ellipsoid_error (h : ArrayArg K) (R c : Option (ArrayArg K)) (err : PyErr) (he : Ellipsoid.initArray h R c = .error err) :
    (err = .index ∧ Nonnegative h.toArray1 ∧ h.toArray1.shape = []) ∨
      (err = .assertion ∧ ¬ (Nonnegative h.toArray1 ∧ h.toArray1.shape = [])) := by
  unfold Ellipsoid.initArray at he
  by_cases hn : Nonnegative h.toArray1
  · simp only [(allNonneg_iff _).mpr hn, pyAssert, if_true, bind, Except.bind, firstLength] at he
    rcases hs : h.toArray1.shape with - | ⟨n, s⟩
    · rw [hs] at he
      cases he
      simp [hn]
    · rw [hs] at he
      simp only [reduceCtorEq, and_false, if_false]
      dsimp only at he
      split at he
      · cases he; rename_i h1; split at h1 <;> cases h1; simp
      · split at he
        · cases he; rename_i h1; split at h1 <;> cases h1; simp
        · cases he
  · have : h.toArray1.allNonneg = false := by
      rw [Bool.eq_false_iff]
      exact fun h => hn ((allNonneg_iff _).mp h)
    simp only [this, pyAssert, bind, Except.bind] at he
    cases he
    simp [hn]

omit [LinearOrder K] in
theorem ofVec_data {n : ℕ} (v : Fin n → K) (k : Fin n) : (ofVec v).data [(k : ℕ)] = v k := by simp [ofVec]

theorem nonneg_ofVec {n : ℕ} (v : Fin n → K) : Nonnegative (ofVec v) ↔ ∀ i, 0 ≤ v i := by
  constructor
  · intro h i
    have := h [(i : ℕ)] (by simp [InShape, ofVec])
    rwa [ofVec_data] at this
  · intro h i hi
    obtain ⟨k, j, hk, hj, rfl⟩ := List.forall₂_cons_right_iff.mp hi
    rw [List.forall₂_nil_right_iff] at hj
    subst hj
    have := ofVec_data v ⟨k, hk⟩
    dsimp only at this
    rw [this]
    exact h _

/-- The stored arrays of an ellipsoid of `Model/Ellipsoid.lean`. -/
def Ellipsoid.arrays {n : ℕ} (e : Ellipsoid K n) : PoseArrays K := ⟨ofVec e.halfExtents, ofMatrix e.rotation, ofVec e.center⟩

/-- The stored arrays of a box of `Model/Box.lean`. -/
def Box.arrays (b : Box K) : PoseArrays K := ⟨ofVec b.halfExtents, ofMatrix b.rotation, ofVec b.center⟩

theorem allNonneg_ofVec {n : ℕ} (v : Fin n → K) : (ofVec v).allNonneg = decide (∀ i, 0 ≤ v i) := by
  rw [Bool.eq_iff_iff, allNonneg_iff, nonneg_ofVec, decide_eq_true_eq]

/-- C112: on vectors and matrices of matching sizes the constructor is that of `Model/Ellipsoid.lean`. -/
theorem C112_ellipsoid_vector {n : ℕ} (h : Fin n → K) (R : Option (Matrix (Fin n) (Fin n) K)) (c : Option (Fin n → K)) :
    Ellipsoid.initArray (.array (ofVec h)) (R.map fun R => .array (ofMatrix R)) (c.map fun c => .array (ofVec c)) =
      (Ellipsoid.init h R c).map Ellipsoid.arrays := by
  unfold Ellipsoid.initArray Ellipsoid.init
  simp only [ArrayArg.toArray1, allNonneg_ofVec]
  by_cases hn : ∀ i, 0 ≤ h i
  · have e1 : ∀ R : Option (Matrix (Fin n) (Fin n) K), rotationArray (R.map fun R => ArrayArg.array (ofMatrix R)) n =
        ofMatrix (R.getD 1) := by
      intro R; cases R <;> rfl
    have e2 : ∀ c : Option (Fin n → K), centerArray (c.map fun c => ArrayArg.array (ofVec c)) n = ofVec (c.getD 0) := by
      intro c; cases c <;> rfl
    have e3 : firstLength (ofVec h) = .ok n := rfl
    have e4 : ∀ v : Fin n → K, (ofVec v).shape = [n] := fun _ => rfl
    have e5 : ∀ A : Matrix (Fin n) (Fin n) K, (ofMatrix A).shape = [n, n] := fun _ => rfl
    simp only [hn, implies_true, decide_true, pyAssert, if_true, bind, Except.bind, e3, e1, e2, e4, e5, beq_self_eq_true, pure,
      Except.pure, Except.map, Ellipsoid.arrays]
  · simp only [hn, decide_false, pyAssert, bind, Except.bind, Except.map]
    rfl

/-- C112: nothing checks that the half extents are a vector: every array of nonnegative numbers with two (or more) axes is accepted. -/
theorem C112_ellipsoid_matrix (a : NdArray K) (n m : ℕ) (hs : a.shape = [n, m]) (hn : Nonnegative a) :
    Ellipsoid.initArray (.array a) = .ok ⟨a, ofMatrix (1 : Matrix (Fin n) (Fin n) K), ofVec (0 : Fin n → K)⟩ :=
  (C112_ellipsoid (.array a) none none _).mpr ⟨hn, n, [m], hs, trivial, Or.inl trivial, rfl⟩

/-- C112: `Box(half_extents, center, rotation)` returns exactly for nonnegative half extents of shape `(3,)`, a center that is left out or
has shape `(3,)` and a rotation that is left out or has shape `(3, 3)`; otherwise it raises `AssertionError`. -/
theorem C112_box (h : ArrayArg K) (c R : Option (ArrayArg K)) :
    (h.toArray.shape = [3] ∧ Nonnegative h.toArray ∧ PositionShape 3 c ∧ RotationShape 3 R →
      ∃ e : PoseArrays K, Box.initArray h c R = .ok e ∧ e.halfExtents = h.toArray ∧ e.rotation = rotationArray R 3 ∧
        e.center = positionArray c 3) ∧
    (¬ (h.toArray.shape = [3] ∧ Nonnegative h.toArray ∧ PositionShape 3 c ∧ RotationShape 3 R) →
      Box.initArray h c R = .error .assertion) := by
  constructor
  · rintro ⟨h1, h2, h3, h4⟩
    refine ⟨⟨h.toArray, rotationArray R 3, positionArray c 3⟩, ?_, rfl, rfl, rfl⟩
    unfold Box.initArray cleanTransformArray
    simp only [h1, (allNonneg_iff _).mpr h2, (rotationArray_shape R 3).mpr h4, (positionArray_shape c 3).mpr h3, beq_self_eq_true, pyAssert, if_true,
      bind, Except.bind, pure, Except.pure]
  · intro hne
    unfold Box.initArray cleanTransformArray
    by_cases h1 : h.toArray.shape = [3]
    · by_cases h2 : Nonnegative h.toArray
      · by_cases h4 : RotationShape 3 R
        · have h3 : ¬ PositionShape 3 c := fun h3 => hne ⟨h1, h2, h3, h4⟩
          simp only [h1, (allNonneg_iff _).mpr h2, (rotationArray_shape R 3).mpr h4, beq_self_eq_true, pyAssert, if_true, bind,
            Except.bind, pure, Except.pure]
          rw [if_neg]
          rw [beq_iff_eq, positionArray_shape]
          exact h3
        · simp only [h1, (allNonneg_iff _).mpr h2, beq_self_eq_true, pyAssert, if_true, bind, Except.bind]
          rw [if_neg]
          rw [beq_iff_eq, rotationArray_shape]
          exact h4
      · simp only [h1, beq_self_eq_true, pyAssert, if_true, bind, Except.bind]
        rw [if_neg]
        rw [allNonneg_iff]
        exact h2
    · simp only [pyAssert, bind, Except.bind]
      rw [if_neg]
      rwa [beq_iff_eq]

/-- C112: on vectors and matrices of the right sizes the constructor is that of `Model/Box.lean`. -/
theorem C112_box_vector (h : Fin 3 → K) (c : Option (Fin 3 → K)) (R : Option (Matrix (Fin 3) (Fin 3) K)) :
    Box.initArray (.array (ofVec h)) (c.map fun c => .array (ofVec c)) (R.map fun R => .array (ofMatrix R)) =
      (Box.init h c R).map Box.arrays := by
  unfold Box.initArray cleanTransformArray Box.init
  have e0 : (ArrayArg.array (ofVec h)).toArray = ofVec h := rfl
  have e4 : ∀ v : Fin 3 → K, (ofVec v).shape = [3] := fun _ => rfl
  simp only [e0, e4, allNonneg_ofVec]
  by_cases hn : ∀ i, 0 ≤ h i
  · have e1 : rotationArray (R.map fun R => ArrayArg.array (ofMatrix R)) 3 = ofMatrix (R.getD 1) := by cases R <;> rfl
    have e5 : ∀ A : Matrix (Fin 3) (Fin 3) K, (ofMatrix A).shape = [3, 3] := fun _ => rfl
    rw [e1]
    cases c <;> simp [hn, pyAssert, bind, Except.bind, e4, e5, positionArray, ArrayArg.toArray, pure, Except.pure, Except.map, Box.arrays]
  · simp [hn, pyAssert, bind, Except.bind, Except.map]

omit [LinearOrder K] in
/-- C112: `clean_transform(rotation, translation, dim)` returns exactly for arguments of shapes `(dim, dim)` and `(dim,)` or none, and
raises `AssertionError` otherwise. -/
theorem C112_clean_transform (n : ℕ) (R t : Option (ArrayArg K)) :
    (RotationShape n R ∧ PositionShape n t → cleanTransformArray R t n = .ok (rotationArray R n, positionArray t n)) ∧
    (¬ (RotationShape n R ∧ PositionShape n t) → cleanTransformArray R t n = .error .assertion) := by
  rw [← rotationArray_shape, ← positionArray_shape]
  unfold cleanTransformArray
  by_cases h1 : (rotationArray R n).shape = [n, n]
  · by_cases h2 : (positionArray t n).shape = [n]
    · simp [h1, h2, pyAssert, bind, Except.bind, pure, Except.pure]
    · simp [h1, h2, pyAssert, bind, Except.bind]
  · simp [h1, pyAssert, bind, Except.bind]

/-- C112: `Cylinder(length, radius, rotation, center)` returns exactly for nonnegative numbers and arguments of shapes `(3, 3)` and
`(3,)`, or none, and stores these; otherwise it raises `AssertionError`. -/
theorem C112_cylinder (l r : K) (R c : Option (ArrayArg K)) :
    (∀ e, Cylinder.initArray l r R c = .ok e ↔ (0 ≤ l ∧ 0 ≤ r ∧ RotationShape 3 R ∧ PositionShape 3 c) ∧
      (rotationArray R 3, positionArray c 3) = e) ∧
    (¬ (0 ≤ l ∧ 0 ≤ r ∧ RotationShape 3 R ∧ PositionShape 3 c) → Cylinder.initArray l r R c = .error .assertion) := by
  unfold Cylinder.initArray
  by_cases h1 : 0 ≤ l
  · by_cases h2 : 0 ≤ r
    · by_cases h3 : (rotationArray R 3).shape = [3, 3]
      · by_cases h4 : PositionShape 3 c
        · have h4' := (positionArray_shape c 3).mpr h4
          have h3' := (rotationArray_shape R 3).mp h3
          simp [h1, h2, h3, h4, h3', h4', pyAssert, bind, Except.bind, pure, Except.pure]
        · have h4' := mt (positionArray_shape c 3).mp h4
          simp [h1, h2, h3, h4, h4', pyAssert, bind, Except.bind]
      · have h3' : ¬ RotationShape 3 R := fun h => h3 ((rotationArray_shape R 3).mpr h)
        simp [h1, h2, h3, h3', pyAssert, bind, Except.bind]
    · simp [h1, h2, pyAssert, bind, Except.bind]
  · simp [h1, pyAssert, bind, Except.bind]

/-- C112: `Ellipsoid.sphere(radius, center)` for a vector is that of `Model/Ellipsoid.lean`. -/
theorem C112_sphere_vector {n : ℕ} (r : K) (c : Fin n → K) :
    ∃ E : NdArray K, (∀ k : Fin n, E.data [(k : ℕ)] = r) ∧ E.shape = [n] ∧ Ellipsoid.sphereArray r (some (.array (ofVec c))) =
      (Ellipsoid.sphere r c).map fun e => ⟨E, ofMatrix e.rotation, ofVec e.center⟩ := by
  refine ⟨⟨[n], fun _ => r * 1⟩, fun _ => mul_one r, rfl, ?_⟩
  unfold Ellipsoid.sphereArray Ellipsoid.initArray Ellipsoid.sphere Ellipsoid.init
  have e3 : firstLength (ofVec c) = .ok n := rfl
  have e6 : firstLength (⟨[n], fun _ => r * 1⟩ : NdArray K) = .ok n := rfl
  have e4 : ∀ v : Fin n → K, (ofVec v).shape = [n] := fun _ => rfl
  have e5 : ∀ A : Matrix (Fin n) (Fin n) K, (ofMatrix A).shape = [n, n] := fun _ => rfl
  have e7 : (⟨[n], fun _ => r * 1⟩ : NdArray K).allNonneg = decide (∀ _ : Fin n, 0 ≤ r * 1) := by
    rw [Bool.eq_iff_iff, allNonneg_iff, decide_eq_true_eq]
    constructor
    · intro h i
      exact h [(i : ℕ)] (by simp [InShape])
    · intro h i hi
      obtain ⟨k, j, hk, hj, rfl⟩ := List.forall₂_cons_right_iff.mp hi
      exact h ⟨k, hk⟩
  simp only [positionArray, ArrayArg.toArray, ArrayArg.toArray1, e3, e6, bind, Except.bind, e7]
  by_cases hn : ∀ _ : Fin n, 0 ≤ r * 1
  · have hd : decide (∀ _ : Fin n, 0 ≤ r * 1) = true := decide_eq_true hn
    simp only [hd, pyAssert, if_true, rotationArray, centerArray, ArrayArg.toArray1, e4, e5,
      beq_self_eq_true, pure, Except.pure, Except.map, Option.getD]
  · have hd : decide (∀ _ : Fin n, 0 ≤ r * 1) = false := decide_eq_false hn
    simp only [hd, pyAssert, Except.map]
    rfl

/-- C112: a sphere in no dimension is accepted with every radius, negative ones included; a center that is a number or an array without
axes raises `IndexError`, and a center with two or more axes `AssertionError`. -/
theorem C112_sphere (r : K) (a : NdArray K) :
    (a.shape = [0] → ∃ e, Ellipsoid.sphereArray r (some (.array a)) = .ok e) ∧
    (a.shape = [] → Ellipsoid.sphereArray r (some (.array a)) = .error .index) ∧
    (∀ x, Ellipsoid.sphereArray r (some (.scalar x)) = .error .index) ∧
    (∀ n m s, a.shape = n :: m :: s → Ellipsoid.sphereArray r (some (.array a)) = .error .assertion) := by
  refine ⟨fun h => ?_, fun h => ?_, fun x => rfl, fun n m s h => ?_⟩
  · have e1 : firstLength a = .ok 0 := by simp [firstLength, h]
    unfold Ellipsoid.sphereArray
    simp only [positionArray, ArrayArg.toArray, e1, bind, Except.bind]
    refine ⟨_, (C112_ellipsoid _ _ _ _).mpr ⟨?_, 0, [], rfl, trivial, Or.inl h, rfl⟩⟩
    intro i hi
    obtain ⟨k, j, hk, hj, rfl⟩ := List.forall₂_cons_right_iff.mp hi
    exact absurd hk (Nat.not_lt_zero k)
  · have e1 : firstLength a = .error .index := by simp [firstLength, h]
    unfold Ellipsoid.sphereArray
    simp only [positionArray, ArrayArg.toArray, e1, bind, Except.bind]
  · have e1 : firstLength a = .ok n := by simp [firstLength, h]
    unfold Ellipsoid.sphereArray
    simp only [positionArray, ArrayArg.toArray, e1, bind, Except.bind]
    rcases he : Ellipsoid.initArray (.array ⟨[n], fun _ => r * 1⟩) none (some (.array a)) with err | e
    · rcases C112_ellipsoid_error _ _ _ _ he with ⟨-, -, h2⟩ | ⟨rfl, -⟩
      · cases h2
      · rfl
    · obtain ⟨-, n', s', h1, -, h3, -⟩ := (C112_ellipsoid _ _ _ _).mp he
      cases h1
      rcases h3 with h3 | ⟨-, x, h3⟩
      · rw [PositionShape, h] at h3; cases h3
      · cases h3

/-! ### Assignment to slices -/

theorem fitsRev_iff : ∀ s t : List ℕ, fitsRev s t = true ↔ ∀ k, s.getD k 1 = 1 ∨ s.getD k 1 = t.getD k 1
  | [], t => by simp [fitsRev]
  | a :: s, [] => by
    simp only [fitsRev, Bool.and_eq_true, beq_iff_eq, fitsRev_iff s []]
    constructor
    · rintro ⟨h1, h2⟩ k
      cases k with
      | zero => exact Or.inl h1
      | succ k => simpa using h2 k
    · intro h
      exact ⟨by simpa using h 0, fun k => by simpa using h (k + 1)⟩
  | a :: s, b :: t => by
    simp only [fitsRev, Bool.and_eq_true, Bool.or_eq_true, beq_iff_eq, fitsRev_iff s t]
    constructor
    · rintro ⟨h1, h2⟩ k
      cases k with
      | zero => simpa [or_comm] using h1
      | succ k => simpa using h2 k
    · intro h
      exact ⟨by simpa [or_comm] using h 0, fun k => by simpa using h (k + 1)⟩

omit [Field K] [LinearOrder K] in
theorem assign_eq (a : NdArray K) (t : List ℕ) :
    (BroadcastsTo a.shape t → a.assign t = .ok (assignedAt a)) ∧ (¬ BroadcastsTo a.shape t → a.assign t = .error .value) := by
  unfold NdArray.assign
  have h := fitsRev_iff a.shape.reverse t.reverse
  exact ⟨fun hb => if_pos (h.mpr hb), fun hb => if_neg (mt h.mp hb)⟩

theorem broadcasts_self (s : List ℕ) : BroadcastsTo s s := fun _ => Or.inr rfl

/-- C112: a part of a spatial vector must have shape `(3,)`. -/
theorem C112_spatial (a : NdArray K) :
    (a.shape = [3] → spatialPart (some (.array a)) = .ok fun i : Fin 3 => a.data [(i : ℕ)]) ∧
    (a.shape = [] → spatialPart (some (.array a)) = .error .type) ∧
    (∀ n s, a.shape = n :: s → n ≠ 3 → spatialPart (some (.array a)) = .error .assertion) ∧
    (∀ n s, a.shape = 3 :: n :: s → spatialPart (some (.array a)) = .error .value) := by
  unfold spatialPart
  refine ⟨fun h => ?_, fun h => ?_, fun n s h hn => ?_, fun n s h => ?_⟩
  · simp only [h]
    rw [(assign_eq a [3]).1 (by rw [h]; exact broadcasts_self _)]
    simp [pyAssert, bind, Except.bind, pure, Except.pure, assignedAt, h, ndim, clip]
  · simp only [h]
  · simp [h, pyAssert, hn, bind, Except.bind]
  · simp only [h]
    rw [(assign_eq a [3]).2]
    · simp [pyAssert, bind, Except.bind]
    · rw [h]
      intro hb
      have := hb (s.length + 1)
      have e : (3 :: n :: s).reverse.getD (s.length + 1) 1 = 3 := by
        simp [List.getD_eq_getElem?_getD, List.getElem?_append]
      have e' : ([3] : List ℕ).reverse.getD (s.length + 1) 1 = 1 := by simp
      rw [axisFromEnd, axisFromEnd, e, e'] at this
      omega

/-- C112: `SpatialVector(linear, angular)` checks the angular part first, and a part that is left out is zero. -/
theorem C112_spatial_vector (l a : Option (ArrayArg K)) :
    (∀ e, spatialPart a = .error e → spatialArray l a = .error e) ∧
    (∀ A e, spatialPart a = .ok A → spatialPart l = .error e → spatialArray l a = .error e) ∧
    (∀ A L, spatialPart a = .ok A → spatialPart l = .ok L → spatialArray l a = .ok (A, L)) ∧
    spatialPart (none : Option (ArrayArg K)) = .ok 0 ∧ ∀ x : K, spatialPart (some (.scalar x)) = .error .type := by
  refine ⟨fun e h => ?_, fun A e h h' => ?_, fun A L h h' => ?_, rfl, fun _ => rfl⟩
  · simp [spatialArray, h, bind, Except.bind]
  · simp [spatialArray, h, h', bind, Except.bind]
  · simp [spatialArray, h, h', bind, Except.bind, pure, Except.pure]

/-! ### Inertial parameters -/

/-- C112: `InertialParameters(mass, com=com, H=H)` checks no shape: it stores every pair of arrays. -/
theorem C112_params_stores (m : K) (hm : 0 ≤ m) (c H : NdArray K) :
    IPArrays.init m none (some c) (some H) none = .ok ⟨m, c, H⟩ := by
  simp [IPArrays.init, IPArrays.comArray, IPArrays.momentArray, pyAssert, hm, bind, Except.bind, pure, Except.pure]

/-- C112: an inertia matrix of any other shape than `(3, 3)` is rejected with `AssertionError`. -/
theorem C112_params_inertia (m : K) (hm : 0 ≤ m) (c : Option (NdArray K)) (I : NdArray K) (t : Bool) (hI : I.shape ≠ [3, 3]) :
    IPArrays.init m none c none (some I) t = .error .assertion := by
  cases c <;>
    simp [IPArrays.init, IPArrays.comArray, IPArrays.momentArray, IPArrays.I2H, pyAssert, hm, hI, bind, Except.bind]

omit [LinearOrder K] in
/-- C112: `J` returns exactly if `H` can be broadcast to `(3, 3)` and `com` to `(3,)`, and raises `ValueError` otherwise. -/
theorem C112_params_J (p : IPArrays K) :
    ((∃ M, p.J = .ok M) ↔ BroadcastsTo p.H.shape [3, 3] ∧ BroadcastsTo p.com.shape [3]) ∧
      ((∃ M, p.J = .ok M) ∨ p.J = .error .value) := by
  unfold IPArrays.J
  dsimp only
  by_cases h1 : BroadcastsTo p.H.shape [3, 3]
  · rw [(assign_eq p.H [3, 3]).1 h1]
    by_cases h2 : BroadcastsTo p.com.shape [3]
    · rw [(assign_eq (p.com.map (p.mass * ·)) [3]).1 h2]
      simp [h1, h2, bind, Except.bind, pure, Except.pure]
    · rw [(assign_eq (p.com.map (p.mass * ·)) [3]).2 h2]
      simp [h1, h2, bind, Except.bind]
  · rw [(assign_eq p.H [3, 3]).2 h1]
    simp [h1, bind, Except.bind]

omit [LinearOrder K] in
theorem ip_J_apply (q : IP K) (i j : Fin 4) : q.J i j =
    if hi : (i : ℕ) < 3 then if hj : (j : ℕ) < 3 then q.H ⟨i, hi⟩ ⟨j, hj⟩ else q.mass * q.com ⟨i, hi⟩
    else if hj : (j : ℕ) < 3 then q.mass * q.com ⟨j, hj⟩ else q.mass := by
  fin_cases i <;> fin_cases j <;> rfl

/-- The arrays hold the given parameters. -/
def ArraysHold (p : IPArrays K) (q : IP K) : Prop :=
  p.mass = q.mass ∧ p.com.shape = [3] ∧ (∀ i : Fin 3, p.com.data [(i : ℕ)] = q.com i) ∧
    p.H.shape = [3, 3] ∧ ∀ i j : Fin 3, p.H.data [(i : ℕ), (j : ℕ)] = q.H i j

omit [LinearOrder K] in
theorem J_of_holds {p : IPArrays K} {q : IP K} (h : ArraysHold p q) : p.J = .ok q.J := by
  obtain ⟨h1, h2, h3, h4, h5⟩ := h
  unfold IPArrays.J
  dsimp only
  rw [(assign_eq p.H [3, 3]).1 (by rw [h4]; exact broadcasts_self _),
    (assign_eq (p.com.map (p.mass * ·)) [3]).1 (by simp only [NdArray.map, h2]; exact broadcasts_self _)]
  simp only [bind, Except.bind, pure, Except.pure, Except.ok.injEq]
  ext i j
  rw [ip_J_apply]
  by_cases hi : (i : ℕ) < 3 <;> by_cases hj : (j : ℕ) < 3
  · have := h5 ⟨i, hi⟩ ⟨j, hj⟩
    simpa [hi, hj, assignedAt, ndim, h4, clip] using this
  · have := h3 ⟨i, hi⟩
    simp only [Matrix.of_apply, hi, hj, assignedAt, NdArray.map, ndim, h2, clip, h1, ← this]
    simp
  · have := h3 ⟨j, hj⟩
    simp only [Matrix.of_apply, hi, hj, assignedAt, NdArray.map, ndim, h2, clip, h1, ← this]
    simp
  · simp [hi, hj, h1]

omit [LinearOrder K] in
theorem ofMatrix_data {m n : ℕ} (A : Matrix (Fin m) (Fin n) K) (i : Fin m) (j : Fin n) : (ofMatrix A).data [(i : ℕ), (j : ℕ)] = A i j := by
  simp [ofMatrix]

omit [LinearOrder K] in
theorem outer_data {c : NdArray K} {v : Fin 3 → K} (hs : c.shape = [3]) (hv : ∀ i : Fin 3, c.data [(i : ℕ)] = v i) (m : K) :
    ((NdArray.outer c c).map (m * ·)).shape = [3, 3] ∧
      ∀ i j : Fin 3, ((NdArray.outer c c).map (m * ·)).data [(i : ℕ), (j : ℕ)] = (m • outer v v) i j := by
  refine ⟨by simp [NdArray.map, NdArray.outer, hs], fun i j => ?_⟩
  simp [NdArray.map, NdArray.outer, hs, unravel, hv, outer]

/-- The second moment matrix before it is translated, on matrices: only for the proof that follows. -/
private def momentOf (m : K) (c : Fin 3 → K) (H I : Option (Matrix (Fin 3) (Fin 3) K)) (t : Bool) : Matrix (Fin 3) (Fin 3) K :=
  match H with
  | some H => H
  | none => match I with
    | none => if t then 0 else m • outer c c
    | some I => I2H I

/-- C112: on vectors and matrices of the right sizes the constructor followed by `J` is that of `Model/Inertial.lean`, with the same
exceptions. -/
theorem C112_params_vector (m : K) (h com : Option (Fin 3 → K)) (H I : Option (Matrix (Fin 3) (Fin 3) K)) (t : Bool) :
    (do
      let p ← IPArrays.init m (h.map ofVec) (com.map ofVec) (H.map ofMatrix) (I.map ofMatrix) t
      p.J) = (IP.init m h com H I t).map IP.J := by
  have hcom : ∀ (c : Fin 3 → K) (H : NdArray K) (H' : Matrix (Fin 3) (Fin 3) K) (cA : NdArray K), cA.shape = [3] →
      (∀ i : Fin 3, cA.data [(i : ℕ)] = c i) → H.shape = [3, 3] → (∀ i j : Fin 3, H.data [(i : ℕ), (j : ℕ)] = H' i j) →
      (do
        let p ← (if t then do
            let H ← H.zip (· + ·) ((NdArray.outer cA cA).map (m * ·))
            pure (⟨m, cA, H⟩ : IPArrays K)
          else pure ⟨m, cA, H⟩ : Py (IPArrays K))
        p.J) = .ok (IP.J ⟨m, c, if t then H' + m • outer c c else H'⟩) := by
    intro c H H' cA h1 h2 h3 h4
    cases t with
    | false => exact J_of_holds ⟨rfl, h1, h2, h3, h4⟩
    | true =>
      obtain ⟨o1, o2⟩ := outer_data h1 h2 m
      obtain ⟨Z, hZ, hZs, hZd⟩ : ∃ Z, H.zip (· + ·) ((NdArray.outer cA cA).map (m * ·)) = .ok Z ∧ Z.shape = [3, 3] ∧
          ∀ i j : Fin 3, Z.data [(i : ℕ), (j : ℕ)] = H' i j + (m • outer c c) i j := by
        unfold NdArray.zip
        rw [h3, o1, broadcast_self]
        refine ⟨_, rfl, rfl, fun i j => ?_⟩
        dsimp only
        rw [clip_self (i := [(i : ℕ), (j : ℕ)]) (s := [3, 3]) (by simp [InShape]), h4, o2]
      rw [if_pos rfl, hZ]
      exact J_of_holds ⟨rfl, h1, h2, hZs, hZd⟩
  have hmom : ∀ (c : Fin 3 → K) (cA : NdArray K), cA.shape = [3] → (∀ i : Fin 3, cA.data [(i : ℕ)] = c i) →
      ∃ HA, IPArrays.momentArray m cA (H.map ofMatrix) (I.map ofMatrix) t = .ok HA ∧ HA.shape = [3, 3] ∧
        ∀ i j : Fin 3, HA.data [(i : ℕ), (j : ℕ)] = momentOf m c H I t i j := by
    intro c cA h1 h2
    rcases H with - | H
    · rcases I with - | I
      · cases t with
        | true => exact ⟨_, rfl, rfl, fun i j => ofMatrix_data _ i j⟩
        | false => exact ⟨_, rfl, (outer_data h1 h2 m).1, (outer_data h1 h2 m).2⟩
      · refine ⟨_, rfl, rfl, fun i j => ?_⟩
        have hd : ∀ i j : Fin 3, (ofMatrix I).data [(i : ℕ), (j : ℕ)] = I i j := ofMatrix_data I
        have h0 := hd 0 0
        have h1 := hd 1 1
        have h2 := hd 2 2
        simp only [Fin.val_zero, Fin.val_one, Fin.val_two] at h0 h1 h2
        simp only [h0, h1, h2, hd]
        simp [momentOf, Rigeo.I2H, Matrix.trace_fin_three, Matrix.one_apply, Fin.ext_iff]
    · exact ⟨_, rfl, rfl, fun i j => ofMatrix_data _ i j⟩
  unfold IPArrays.init IP.init
  by_cases hm : 0 ≤ m
  · by_cases hHI : (H.isSome && I.isSome) = true
    · have hHI' : ((H.map ofMatrix).isSome && (I.map ofMatrix).isSome) = true := by simpa using hHI
      by_cases hhc : (h.isSome && com.isSome) = true
      · have hhc' : ((h.map ofVec).isSome && (com.map ofVec).isSome) = true := by simpa using hhc
        simp only [hm, decide_true, pyAssert, if_true, bind, Except.bind, hhc, hhc']
        rfl
      · have hhc' : ¬ ((h.map ofVec).isSome && (com.map ofVec).isSome) = true := by simpa using hhc
        simp only [hm, decide_true, pyAssert, if_true, bind, Except.bind, hhc, hhc', hHI, hHI']
        rfl
    · have hHI' : ¬ ((H.map ofMatrix).isSome && (I.map ofMatrix).isSome) = true := by simpa using hHI
      have hfin : ∀ (c : Fin 3 → K) (cA : NdArray K), cA.shape = [3] → (∀ i : Fin 3, cA.data [(i : ℕ)] = c i) →
          (do
            let p ← (do
              let H ← IPArrays.momentArray m cA (H.map ofMatrix) (I.map ofMatrix) t
              if t then do
                let H ← H.zip (· + ·) ((NdArray.outer cA cA).map (m * ·))
                pure (⟨m, cA, H⟩ : IPArrays K)
              else pure ⟨m, cA, H⟩ : Py (IPArrays K))
            p.J) = (.ok (IP.J ⟨m, c, if t then momentOf m c H I t + m • outer c c else momentOf m c H I t⟩) :
              Py (Matrix (Fin 4) (Fin 4) K)) := by
        intro c cA h1 h2
        obtain ⟨HA, e, hs, hd⟩ := hmom c cA h1 h2
        rw [e]
        exact hcom c HA _ cA h1 h2 hs hd
      have hm' : pyAssert (decide (0 ≤ m)) = .ok () := by simp [pyAssert, hm]
      rcases h with - | h <;> rcases com with - | com
      · rw [hm', if_neg hHI, if_neg hHI']
        exact hfin 0 (ofVec 0) rfl (ofVec_data 0)
      · rw [hm', if_neg hHI, if_neg hHI']
        exact hfin com (ofVec com) rfl (ofVec_data com)
      · rw [hm', if_neg hHI, if_neg hHI']
        by_cases h0 : m = 0
        · simp [h0, IPArrays.comArray, vdiv, bind, Except.bind, Except.map, pure, Except.pure]
        · have e1 : IPArrays.comArray m (Option.map ofVec (some h)) (Option.map ofVec (none : Option (Fin 3 → K))) = .ok ((ofVec h).map (· / m)) := by
            simp [IPArrays.comArray, h0]
          have e2 : vdiv h m = .ok (fun i => h i / m) := by simp [vdiv, h0]
          dsimp only
          rw [e1, e2]
          exact hfin (fun i => h i / m) ((ofVec h).map (· / m)) rfl fun i => by simp [NdArray.map, ofVec_data]
      · simp [hm, pyAssert, bind, Except.bind, Except.map, throw, throwThe, MonadExceptOf.throw]
  · simp [hm, pyAssert, bind, Except.bind, Except.map]

/-- C112: a second moment matrix given as three numbers is accepted, and `J` repeats them in every row. -/
theorem C112_params_row (m : K) (hm : 0 ≤ m) (c H : Fin 3 → K) :
    (do
      let p ← IPArrays.init m none (some (ofVec c)) (some (ofVec H)) none
      p.J) = (.ok (IP.J ⟨m, c, Matrix.of fun _ j => H j⟩) : Py (Matrix (Fin 4) (Fin 4) K)) := by
  rw [C112_params_stores m hm]
  change IPArrays.J (⟨m, ofVec c, ofVec H⟩ : IPArrays K) = _
  unfold IPArrays.J
  dsimp only
  have b : BroadcastsTo [3] [3, 3] := by
    intro k
    rcases k with - | - | k
    · right; rfl
    · left; rfl
    · left; simp [axisFromEnd]
  rw [(assign_eq (ofVec H) [3, 3]).1 b, (assign_eq ((ofVec c).map (m * ·)) [3]).1 (broadcasts_self _)]
  simp only [bind, Except.bind, pure, Except.pure, Except.ok.injEq]
  ext i j
  rw [ip_J_apply]
  have hv : ∀ (v : Fin 3 → K) (k : ℕ) (hk : k < 3), (ofVec v).data [k] = v ⟨k, hk⟩ := fun v k hk => ofVec_data v ⟨k, hk⟩
  by_cases hi : (i : ℕ) < 3 <;> by_cases hj : (j : ℕ) < 3 <;>
    simp [hi, hj, assignedAt, ofVec, NdArray.map, ndim, clip, IP.h]

end Field

/-- A two by two array of half extents is accepted. -/
example : ∃ e : PoseArrays ℚ, Ellipsoid.initArray (.array ⟨[2, 2], fun _ => 1⟩) = .ok e ∧ e.halfExtents.shape = [2, 2] :=
  ⟨_, C112_ellipsoid_matrix ⟨[2, 2], fun _ => 1⟩ 2 2 rfl fun _ _ => zero_le_one, rfl⟩

/-- A box with the documented shapes, and one with a center of two coordinates. -/
example : (∃ e : PoseArrays ℚ, Box.initArray (.array (ofVec ![1, 2, 3])) (some (.array (ofVec ![0, 0, 1]))) = .ok e ∧
      e.halfExtents = ofVec ![1, 2, 3] ∧ e.rotation = rotationArray none 3 ∧ e.center = ofVec ![0, 0, 1]) ∧
    Box.initArray (K := ℚ) (.array (ofVec ![1, 2, 3])) (some (.array (ofVec ![0, 0]))) = .error .assertion := by
  refine ⟨(C112_box _ _ _).1 ⟨rfl, ?_, rfl, trivial⟩, (C112_box _ _ _).2 fun h => ?_⟩
  · refine (allNonneg_iff _).mp ((allNonneg_ofVec _).trans ?_)
    decide
  · have := h.2.2.1
    simp [PositionShape, ofVec] at this

/-- A second moment matrix given by its diagonal only: `J` has equal rows. -/
example : (do
    let p ← IPArrays.init (K := ℚ) 2 none (some (ofVec ![0, 0, 0])) (some (ofVec ![1, 2, 3])) none
    p.J) = .ok (IP.J ⟨2, ![0, 0, 0], !![1, 2, 3; 1, 2, 3; 1, 2, 3]⟩) := by
  rw [C112_params_row 2 (by norm_num)]
  congr 3
  ext i j
  fin_cases i <;> fin_cases j <;> rfl

/-- Parameters from the inertia matrix and the first moment, as in `Model/Inertial.lean`. -/
example : (do
    let p ← IPArrays.init (K := ℚ) 2 (some (ofVec ![2, 0, 0])) none none (some (ofMatrix (1 : Matrix (Fin 3) (Fin 3) ℚ))) true
    p.J) = (IP.init 2 (some ![2, 0, 0]) none none (some 1) true).map IP.J :=
  C112_params_vector 2 (some ![2, 0, 0]) none none (some 1) true

/-- `J` fails for a center of mass of two coordinates, although the constructor accepts it. -/
example : IPArrays.J (K := ℚ) ⟨1, ofVec ![0, 0], ofMatrix (1 : Matrix (Fin 3) (Fin 3) ℚ)⟩ = .error .value := by
  rcases (C112_params_J (K := ℚ) ⟨1, ofVec ![0, 0], ofMatrix (1 : Matrix (Fin 3) (Fin 3) ℚ)⟩).2 with h | h
  · have := ((C112_params_J _).1.mp h).2 0
    simp [axisFromEnd, ofVec] at this
  · exact h

/-- A spatial vector with its angular part only, and one with a linear part of shape `(3, 1)`. -/
example : spatialArray (K := ℚ) none (some (.array (ofVec ![1, 2, 3]))) = .ok (fun i => (ofVec ![1, 2, 3]).data [(i : ℕ)], 0) ∧
    spatialArray (K := ℚ) (some (.array ⟨[3, 1], fun _ => 1⟩)) none = .error .value :=
  ⟨(C112_spatial_vector _ _).2.2.1 _ _ ((C112_spatial (ofVec ![1, 2, 3])).1 rfl) rfl,
    (C112_spatial_vector _ _).2.1 0 _ rfl ((C112_spatial ⟨[3, 1], fun _ => 1⟩).2.2.2 1 [] rfl)⟩

/-- An inertia matrix given by its diagonal is rejected, unlike a second moment matrix. -/
example := C112_params_inertia (K := ℚ) 2 (by norm_num) none (ofVec ![1, 2, 3]) true (by simp [ofVec])

/-- `clean_transform` in dimension two with a translation of three coordinates. -/
example : cleanTransformArray (K := ℚ) none (some (.array (ofVec ![1, 2, 3]))) 2 = .error .assertion :=
  (C112_clean_transform 2 _ _).2 fun h => by simpa [PositionShape, ofVec] using h.2

end Rigeo
