import Verif.Props.Moment3
import Verif.Props.Same
import Verif.Props.MultiBody
import Verif.Props.Constructors

/-!
# Further exact descriptions (C06, C22, C24, C45, C81)

These pin down values that the other theorems leave open.
-/

namespace Rigeo

open Matrix

variable {K : Type} [Field K]

/-- C06: `transform_matrix` with missing arguments: no rotation means the identity, no translation means zero,
and arrays of the wrong shape raise `AssertionError`. -/
theorem C06_defaults (d : ℕ) :
    (transformMatrixDyn (K := K) none none d = .ok 1) ∧
    (∀ R : Matrix (Fin d) (Fin d) K, ∃ T, transformMatrixDyn (some ⟨d, d, R⟩) none d = .ok T ∧
      ∀ p : Fin d → K, T *ᵥ Fin.snoc (α := fun _ => K) p 1 = Fin.snoc (α := fun _ => K) (R *ᵥ p) 1) ∧
    (∀ t : Fin d → K, ∃ T, transformMatrixDyn none (some ⟨d, t⟩) d = .ok T ∧
      ∀ p : Fin d → K, T *ᵥ Fin.snoc (α := fun _ => K) p 1 = Fin.snoc (α := fun _ => K) (p + t) 1) ∧
    (∀ (R : Matrix (Fin d) (Fin d) K) (t : Fin d → K),
      ∃ T, transformMatrixDyn (some ⟨d, d, R⟩) (some ⟨d, t⟩) d = .ok T ∧
      ∀ p : Fin d → K, T *ᵥ Fin.snoc (α := fun _ => K) p 1 = Fin.snoc (α := fun _ => K) (R *ᵥ p + t) 1) ∧
    (∀ (R : Arr2 K) (t : Option (Arr1 K)), ¬ (R.rows = d ∧ R.cols = d) →
      transformMatrixDyn (some R) t d = .error .assertion) ∧
    ∀ (t : Arr1 K), t.len ≠ d → transformMatrixDyn none (some t) d = .error .assertion := by
  refine ⟨?_, fun R => ⟨transformMatrix R 0, ?_, fun p => ?_⟩, fun t => ⟨transformMatrix 1 t, ?_, fun p => ?_⟩,
    fun R t => ⟨transformMatrix R t, ?_, fun p => ?_⟩, fun R t hR => ?_, fun t ht => ?_⟩
  · show Except.ok _ = Except.ok _
    rw [transformMatrix_one_zero]
  · simp [transformMatrixDyn, cleanTransform, bind, Except.bind, pure, Except.pure]; rfl
  · rw [C06_transformMatrix_acts]; simp [Spec.rigid]
  · simp [transformMatrixDyn, cleanTransform, bind, Except.bind, pure, Except.pure]
  · rw [C06_transformMatrix_acts]; simp [Spec.rigid]
  · simp [transformMatrixDyn, cleanTransform, bind, Except.bind, pure, Except.pure]; rfl
  · rw [C06_transformMatrix_acts]; simp [Spec.rigid]
  · simp [transformMatrixDyn, cleanTransform, hR, bind, Except.bind]
  · simp [transformMatrixDyn, cleanTransform, ht, bind, Except.bind, pure, Except.pure]

section Order
variable [LinearOrder K] [IsStrictOrderedRing K]

/-- C22: `substitute` replaces every monomial by its value; it raises `KeyError` exactly when a monomial of the
polynomial has no value. -/
theorem C22_key_error {n : ℕ} (p : Polynomial K n) (m : List ((Fin n → ℕ) × K)) :
    (∀ y : (Fin n → ℕ) → K, (∀ kc ∈ p.coefficients, dictGet m kc.1 = some (y kc.1)) →
      p.substitute m = .ok (p.coefficients.map fun kc => kc.2 * y kc.1).sum) ∧
    ((∃ kc ∈ p.coefficients, dictGet m kc.1 = none) → p.substitute m = .error .key) := by
  refine ⟨fun y h => substitute_ok p m y h, ?_⟩
  have key : ∀ (f : (Fin n → ℕ) × K → Py K) (l : List ((Fin n → ℕ) × K)),
      (∀ kc ∈ l, f kc = .error .key ∨ ∃ v, f kc = .ok v) → (∃ kc ∈ l, f kc = .error .key) → l.mapM f = .error .key := by
    intro f l
    induction l with
    | nil => rintro - ⟨kc, h, -⟩; simp at h
    | cons a l ih =>
      rintro h0 ⟨kc, h, h'⟩
      rw [List.mapM_cons]
      rcases h0 a List.mem_cons_self with ha | ⟨v, ha⟩
      · rw [ha]; rfl
      · rw [ha]
        rcases List.mem_cons.mp h with rfl | h
        · rw [ha] at h'; cases h'
        · rw [ih (fun x hx => h0 x (List.mem_cons_of_mem _ hx)) ⟨kc, h, h'⟩]; rfl
  rintro ⟨kc, h, h'⟩
  unfold Polynomial.substitute
  rw [key]
  · rfl
  · intro x _
    cases dictGet m x.1 with
    | none => exact Or.inl rfl
    | some v => exact Or.inr ⟨_, rfl⟩
  · exact ⟨kc, h, by rw [h']⟩

/-- C24: `localizing_constraints` with a list of polynomials says that the form of every one of them is
non-negative. -/
theorem C24_localizing_all {n d : ℕ} (hd : 1 ≤ d) (y : (Fin n → ℕ) → K)
    (M : Matrix (Fin (Polynomial.dim n d)) (Fin (Polynomial.dim n d)) K) (hM : Spec.IsMomentMatrix d y M)
    (ps : List (Polynomial K n)) (hp : ∀ p ∈ ps, p.WF) (D : Polynomial K n → ℕ)
    (hD : ∀ p ∈ ps, p.degree = .ok (D p) ∧ D p ≤ 2 * d) :
    ∃ c, MomentMatrix.localizingConstraints n d M ps = .ok c ∧
      (c ↔ ∀ p ∈ ps, Spec.LocalizedPSD (d - (D p + 1) / 2) p.coefficients y) := by
  have h : ∀ p ∈ ps, ∃ c, MomentMatrix.localizingConstraint n d M p = .ok c ∧
      (c ↔ Spec.LocalizedPSD (d - (D p + 1) / 2) p.coefficients y) := fun p hm =>
    C24_localizing hd y M hM p (hp p hm) (hD p hm).1 (hD p hm).2
  have key : ∃ cs, ps.mapM (MomentMatrix.localizingConstraint n d M) = .ok cs ∧
      ((∀ c ∈ cs, c) ↔ ∀ p ∈ ps, Spec.LocalizedPSD (d - (D p + 1) / 2) p.coefficients y) := by
    clear hp hD
    induction ps with
    | nil => exact ⟨[], rfl, by simp⟩
    | cons p ps ih =>
      obtain ⟨cs, h1, h2⟩ := ih fun q hq => h q (List.mem_cons_of_mem _ hq)
      obtain ⟨c, h3, h4⟩ := h p List.mem_cons_self
      refine ⟨c :: cs, ?_, ?_⟩
      · rw [List.mapM_cons, h3, h1]; rfl
      · simp only [List.forall_mem_cons, h2, h4]
  obtain ⟨cs, h1, h2⟩ := key
  refine ⟨∀ c ∈ cs, c, ?_, h2⟩
  unfold MomentMatrix.localizingConstraints
  rw [h1]
  rfl

/-- C45: two cylinders are the same exactly when length, radius, centre and rotation agree to a relative tolerance
of `1e-5` plus an absolute one of `1e-8`. In particular cylinders that differ in length or radius by more are not
the same. -/
theorem C45_cylinder_iff (c c' : Cylinder K) :
    AnyShape.isSame (.cylinder c) (.cylinder c') = .ok true ↔
      |c.length - c'.length| ≤ 1 / 100000000 + 1 / 100000 * |c'.length| ∧
      |c.radius - c'.radius| ≤ 1 / 100000000 + 1 / 100000 * |c'.radius| ∧
      (∀ i, |c.center i - c'.center i| ≤ 1 / 100000000 + 1 / 100000 * |c'.center i|) ∧
      ∀ i j, |c.rotation i j - c'.rotation i j| ≤ 1 / 100000000 + 1 / 100000 * |c'.rotation i j| := by
  show Except.ok (c.isSame c') = _ ↔ _
  rw [Except.ok.injEq]
  unfold Cylinder.isSame
  have hc : ∀ x y : K, isclose x y rtol5 tol8 = true ↔ |x - y| ≤ 1 / 100000000 + 1 / 100000 * |y| := by
    intro x y
    unfold isclose rtol5 tol8
    rw [decide_eq_true_iff]
  simp only [Bool.and_eq_true, decide_eq_true_iff, hc, and_assoc]

/-- Cylinders of radius one and two are different. -/
example : ¬ AnyShape.isSame (.cylinder (⟨1, 1, 1, 0⟩ : Cylinder ℚ)) (.cylinder ⟨1, 2, 1, 0⟩) = .ok true := by
  rw [C45_cylinder_iff]
  rintro ⟨-, h, -⟩
  norm_num [abs_of_neg, abs_of_pos] at h

end Order

/-- C81: the counts `nv` and `nr`: the matrix for cdd has `nv` rows for vertices, which come first and are marked
with 1, followed by `nr` rows for rays, which are marked with 0. -/
theorem C81_rows {d : ℕ} (s : SpanForm K d) (hs : s.vertices ≠ none ∨ s.rays ≠ none) :
    ∃ M, s.toCdd = .ok M ∧ M.rows.length = s.nv + s.nr ∧ (∀ r ∈ M.rows.take s.nv, r.1 = 1) ∧
      (∀ r ∈ M.rows.drop s.nv, r.1 = 0) ∧ (M.rows.take s.nv).map Prod.snd = s.vertices.getD [] ∧
      (M.rows.drop s.nv).map Prod.snd = s.rays.getD [] := by
  have hc : (s.vertices.isNone && s.rays.isNone) = false := by
    rcases hs with h | h
    · cases e : s.vertices <;> simp_all
    · cases e : s.rays <;> simp_all
  have hv : s.nv = (s.vertices.getD []).length := by unfold SpanForm.nv; cases s.vertices <;> rfl
  have hr : s.nr = (s.rays.getD []).length := by unfold SpanForm.nr; cases s.rays <;> rfl
  refine ⟨⟨(s.vertices.getD []).map (fun v => (1, v)) ++ (s.rays.getD []).map (fun r => (0, r)), []⟩, ?_, ?_, ?_⟩
  · unfold SpanForm.toCdd; rw [hc]; rfl
  · simp [hv, hr]
  · have hl : s.nv = ((s.vertices.getD []).map fun v => ((1 : K), v)).length := by simp [hv]
    dsimp only
    rw [hl, List.take_left, List.drop_left]
    refine ⟨?_, ?_, ?_, ?_⟩
    · intro r hr; obtain ⟨v, -, rfl⟩ := List.mem_map.mp hr; rfl
    · intro r hr; obtain ⟨v, -, rfl⟩ := List.mem_map.mp hr; rfl
    · simp [Function.comp_def]
    · simp [Function.comp_def]

example : ∃ M, (⟨some [![0, 0], ![1, 0]], some [![0, 1]]⟩ : SpanForm ℚ 2).toCdd = .ok M ∧ M.rows.length = 3 := by
  obtain ⟨M, h1, h2, -⟩ := C81_rows (⟨some [![0, 0], ![1, 0]], some [![0, 1]]⟩ : SpanForm ℚ 2) (Or.inl (by simp))
  exact ⟨M, h1, h2⟩

end Rigeo
