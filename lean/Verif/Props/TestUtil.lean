import Verif.Model.TestUtil
import Verif.Lemmas.Shapes
import Mathlib.Data.List.Perm.Subperm
import Mathlib.Data.List.Forall2

/-! # Unordered comparison of rows: C66 -/

namespace Rigeo

section Field
variable {K : Type} [Field K] [LinearOrder K] [IsStrictOrderedRing K] {m : ℕ}

/-- The rows not yet paired. -/
def unpaired (B : List (Fin m → K)) (checked : List Bool) : List (Fin m → K) :=
  ((B.zip checked).filter fun bc => !bc.2).map Prod.fst

omit [Field K] [LinearOrder K] [IsStrictOrderedRing K] in
theorem unpaired_replicate (B : List (Fin m → K)) : unpaired B (List.replicate B.length false) = B := by
  induction B with
  | nil => rfl
  | cons b B ih =>
    simp only [unpaired, List.length_cons, List.replicate_succ, List.zip_cons_cons] at ih ⊢
    simp [ih]

omit [Field K] [LinearOrder K] [IsStrictOrderedRing K] in
theorem unpaired_set (B : List (Fin m → K)) : ∀ (checked : List Bool) (i : ℕ) (b : Fin m → K),
    B[i]? = some b → checked[i]? = some false →
      (unpaired B checked).Perm (b :: unpaired B (checked.set i true)) := by
  induction B with
  | nil => intro checked i b h; simp at h
  | cons b0 B ih =>
    intro checked i b h h'
    rcases checked with _ | ⟨c, cs⟩
    · simp at h'
    · rcases i with _ | i
      · simp only [List.getElem?_cons_zero, Option.some.injEq] at h h'
        subst h h'
        simp [unpaired]
      · simp only [List.getElem?_cons_succ] at h h'
        have := ih cs i b h h'
        simp only [unpaired, List.set_cons_succ, List.zip_cons_cons] at this ⊢
        cases c
        · simp only [Bool.not_false, List.filter_cons_of_pos, List.map_cons]
          exact (this.cons _).trans (List.Perm.swap _ _ _)
        · simpa using this

theorem argmaxBool_spec (test : List Bool) : test[argmaxBool test]?.getD false = true ↔ true ∈ test := by
  unfold argmaxBool
  rcases h : test.findIdx? id with _ | i
  · rw [List.findIdx?_eq_none_iff] at h
    have hn : true ∉ test := fun hm => by have := h true hm; simp at this
    simp only [Option.getD_none, hn, iff_false]
    rcases test with _ | ⟨t, ts⟩
    · simp
    · have := h t (by simp)
      simp at this
      simp [this]
  · rw [List.findIdx?_eq_some_iff_getElem] at h
    obtain ⟨hi, h1, -⟩ := h
    have h1 : test[i] = true := h1
    simp only [Option.getD_some, List.getElem?_eq_getElem hi, h1, true_iff]
    exact h1 ▸ List.getElem_mem hi

theorem rowClose_iff (rtol atol : K) (a b : Fin m → K) :
    rowClose rtol atol a b = true ↔ ∀ j, |a j - b j| ≤ atol + rtol * |b j| := by
  simp [rowClose, isclose]

/-- The loop step. -/
theorem allcloseLoop_cons (B : List (Fin m → K)) (rtol atol : K) (a : Fin m → K) (A : List (Fin m → K))
    (checked : List Bool) (hl : checked.length = B.length) :
    (allcloseLoop B rtol atol (a :: A) checked = true →
      ∃ (i : ℕ) (b : Fin m → K), B[i]? = some b ∧ checked[i]? = some false ∧ rowClose rtol atol a b = true ∧
        allcloseLoop B rtol atol A (checked.set i true) = true) ∧
    ((∃ b ∈ unpaired B checked, rowClose rtol atol a b = true) →
      ∃ (i : ℕ) (b : Fin m → K), B[i]? = some b ∧ checked[i]? = some false ∧ rowClose rtol atol a b = true ∧
        allcloseLoop B rtol atol (a :: A) checked = allcloseLoop B rtol atol A (checked.set i true)) := by
  set test := List.zipWith (fun b c => rowClose rtol atol a b && !c) B checked with ht
  have hstep : allcloseLoop B rtol atol (a :: A) checked =
      if test[argmaxBool test]?.getD false then allcloseLoop B rtol atol A (checked.set (argmaxBool test) true)
      else false := rfl
  have hidx : test[argmaxBool test]?.getD false = true → ∃ b, B[argmaxBool test]? = some b ∧
      checked[argmaxBool test]? = some false ∧ rowClose rtol atol a b = true := by
    intro h
    rcases h' : test[argmaxBool test]? with _ | t
    · rw [h'] at h; simp at h
    · rw [h'] at h
      simp only [Option.getD_some] at h
      subst h
      rw [ht, List.getElem?_zipWith] at h'
      rcases hB : B[argmaxBool test]? with _ | b
      · rw [← ht, hB] at h'; simp at h'
      · rcases hc : checked[argmaxBool test]? with _ | c
        · rw [← ht, hB, hc] at h'; simp at h'
        · rw [← ht, hB, hc] at h'
          simp only [Option.some.injEq, Bool.and_eq_true, Bool.not_eq_true'] at h'
          exact ⟨b, rfl, by rw [h'.2], h'.1⟩
  constructor
  · intro h
    rw [hstep] at h
    split_ifs at h with h0
    obtain ⟨b, h1, h2, h3⟩ := hidx h0
    exact ⟨_, b, h1, h2, h3, h⟩
  · rintro ⟨b, hb, hab⟩
    have h0 : test[argmaxBool test]?.getD false = true := by
      rw [argmaxBool_spec]
      simp only [unpaired, List.mem_map, List.mem_filter] at hb
      obtain ⟨⟨b', c⟩, ⟨hz, hc⟩, rfl⟩ := hb
      rw [ht, ← List.map_uncurry_zip_eq_zipWith, List.mem_map]
      exact ⟨(b', c), hz, by simp [hab]; simpa using hc⟩
    obtain ⟨b, h1, h2, h3⟩ := hidx h0
    exact ⟨_, b, h1, h2, h3, by rw [hstep, if_pos h0]⟩

theorem allcloseLoop_sound (B : List (Fin m → K)) (rtol atol : K) : ∀ (A : List (Fin m → K)) (checked : List Bool),
    checked.length = B.length → allcloseLoop B rtol atol A checked = true →
      ∃ C D, (C ++ D).Perm (unpaired B checked) ∧
        List.Forall₂ (fun a b => ∀ j, |a j - b j| ≤ atol + rtol * |b j|) A C := by
  intro A
  induction A with
  | nil => intro checked _ _; exact ⟨[], _, List.Perm.refl _, List.Forall₂.nil⟩
  | cons a A ih =>
    intro checked hl h
    obtain ⟨i, b, h1, h2, h3, h4⟩ := (allcloseLoop_cons B rtol atol a A checked hl).1 h
    obtain ⟨C, D, h5, h6⟩ := ih (checked.set i true) (by simpa using hl) h4
    refine ⟨b :: C, D, ?_, List.Forall₂.cons ((rowClose_iff _ _ _ _).mp h3) h6⟩
    exact ((h5.cons b).trans (unpaired_set B checked i b h1 h2).symm)

/-- C66: if `allclose_unordered(A, B)` returns `True`, the rows of `B` can be rearranged (each used exactly once) so that
they are close to the rows of `A`, one by one. -/
theorem C66_sound (A B : List (Fin m → K)) (rtol atol : K) (h : allcloseUnordered A B rtol atol = .ok true) :
    ∃ C : List (Fin m → K), C.Perm B ∧
      List.Forall₂ (fun a b => ∀ j, |a j - b j| ≤ atol + rtol * |b j|) A C := by
  unfold allcloseUnordered pyAssert at h
  by_cases hl : A.length = B.length
  · simp only [hl, beq_self_eq_true, if_true, bind, Except.bind, pure, Except.pure, Except.ok.injEq] at h
    obtain ⟨C, D, h1, h2⟩ := allcloseLoop_sound B rtol atol A _ (by simp) h
    rw [unpaired_replicate] at h1
    have hC := h2.length_eq
    have := h1.length_eq
    rw [List.length_append] at this
    have hD : D = [] := List.length_eq_zero_iff.mp (by omega)
    subst hD
    exact ⟨C, by simpa using h1, h2⟩
  · simp [hl, bind, Except.bind] at h

/-- C66: the function raises `AssertionError` exactly for different numbers of rows. -/
theorem C66_shape (A B : List (Fin m → K)) (rtol atol : K) :
    (A.length ≠ B.length → allcloseUnordered A B rtol atol = .error .assertion) ∧
    (A.length = B.length → ∃ r, allcloseUnordered A B rtol atol = .ok r) := by
  unfold allcloseUnordered pyAssert
  constructor <;> intro h <;> simp [h, bind, Except.bind, pure, Except.pure]

theorem allcloseLoop_exact (B : List (Fin m → K)) : ∀ (A : List (Fin m → K)) (checked : List Bool),
    checked.length = B.length → A.Subperm (unpaired B checked) → allcloseLoop B 0 0 A checked = true := by
  intro A
  induction A with
  | nil => intro checked _ _; rfl
  | cons a A ih =>
    intro checked hl h
    have hclose : ∀ b : Fin m → K, rowClose 0 0 a b = true ↔ a = b := fun b => by
      rw [rowClose_iff]
      constructor
      · intro h; ext j
        have := h j
        simp only [zero_mul, add_zero, abs_nonpos_iff, sub_eq_zero] at this
        exact this
      · rintro rfl j; simp
    obtain ⟨i, b, h1, h2, h3, h4⟩ := (allcloseLoop_cons B 0 0 a A checked hl).2
      ⟨a, h.subset (by simp), (hclose a).mpr rfl⟩
    obtain rfl := (hclose b).mp h3
    rw [h4]
    refine ih _ (by simpa using hl) ?_
    have := (unpaired_set B checked i a h1 h2)
    exact List.subperm_cons a |>.mp (h.trans this.subperm)

/-- C66: with zero tolerance the result is `True` exactly when the two matrices have the same rows with the same
multiplicities. -/
theorem C66_exact (A B : List (Fin m → K)) (hl : A.length = B.length) :
    allcloseUnordered A B 0 0 = .ok true ↔ A.Perm B := by
  constructor
  · intro h
    obtain ⟨C, h1, h2⟩ := C66_sound A B 0 0 h
    have : A = C := by
      clear h h1 hl
      induction h2 with
      | nil => rfl
      | cons hab _ ih =>
        rw [ih]
        congr 1
        ext j
        have := hab j
        simp only [zero_mul, add_zero, abs_nonpos_iff, sub_eq_zero] at this
        exact this
    rw [this]; exact h1
  · intro h
    unfold allcloseUnordered pyAssert
    simp only [hl, beq_self_eq_true, if_true, bind, Except.bind, pure, Except.pure, Except.ok.injEq]
    exact allcloseLoop_exact B A _ (by simp) (by rw [unpaired_replicate]; exact h.subperm)

/-- C66: every matrix is close to every reordering of itself, at all non-negative tolerances that separate its rows. In
particular (by `C66_exact`) the function is reflexive and symmetric at zero tolerance. -/
theorem C66_refl (A : List (Fin m → K)) : allcloseUnordered A A 0 0 = .ok true :=
  (C66_exact A A rfl).mpr (List.Perm.refl _)

/-- C66: if no row of `A` is close to two different rows of `B` (positions with equal rows are harmless), then the greedy
search is also complete: every pairing is found. -/
theorem C66_complete (A B : List (Fin m → K)) (rtol atol : K)
    (hsep : ∀ a ∈ A, ∀ b ∈ B, ∀ b' ∈ B, (∀ j, |a j - b j| ≤ atol + rtol * |b j|) →
      (∀ j, |a j - b' j| ≤ atol + rtol * |b' j|) → b = b')
    (h : ∃ C : List (Fin m → K), C.Perm B ∧
      List.Forall₂ (fun a b => ∀ j, |a j - b j| ≤ atol + rtol * |b j|) A C) :
    allcloseUnordered A B rtol atol = .ok true := by
  obtain ⟨C, hC, hAC⟩ := h
  have hl : A.length = B.length := by rw [hAC.length_eq, hC.length_eq]
  unfold allcloseUnordered pyAssert
  simp only [hl, beq_self_eq_true, if_true, bind, Except.bind, pure, Except.pure, Except.ok.injEq]
  have key : ∀ (A C : List (Fin m → K)) (checked : List Bool),
      (∀ a ∈ A, ∀ b ∈ B, ∀ b' ∈ B, (∀ j, |a j - b j| ≤ atol + rtol * |b j|) →
        (∀ j, |a j - b' j| ≤ atol + rtol * |b' j|) → b = b') →
      List.Forall₂ (fun a b => ∀ j, |a j - b j| ≤ atol + rtol * |b j|) A C → (∀ c ∈ C, c ∈ B) →
      checked.length = B.length → C.Subperm (unpaired B checked) →
      allcloseLoop B rtol atol A checked = true := by
    intro A
    induction A with
    | nil => intros; rfl
    | cons a A ih =>
      intro C checked hsep hAC hCB hl h
      rcases hAC with _ | ⟨hac, hAC⟩
      rename_i c C
      obtain ⟨i, b, h1, h2, h3, h4⟩ := (allcloseLoop_cons B rtol atol a A checked hl).2
        ⟨c, h.subset (by simp), (rowClose_iff _ _ _ _).mpr hac⟩
      have hbc : b = c := hsep a (by simp) b (List.mem_of_getElem? h1) c (hCB c (by simp))
        ((rowClose_iff _ _ _ _).mp h3) hac
      subst hbc
      rw [h4]
      refine ih C _ (fun a ha => hsep a (by simp [ha])) hAC (fun c hc => hCB c (by simp [hc])) (by simpa using hl) ?_
      exact (List.subperm_cons b).mp (h.trans (unpaired_set B checked i b h1 h2).subperm)
  exact key A C _ hsep hAC (fun c hc => hC.mem_iff.mp hc) (by simp)
    (by rw [unpaired_replicate]; exact hC.subperm)

end Field

/-- C66: with the default tolerances the greedy search can fail although a pairing exists. -/
theorem C66_incomplete : ∃ A B : List (Fin 1 → ℚ), allcloseUnordered A B = .ok false ∧
    ∃ C : List (Fin 1 → ℚ), C.Perm B ∧
      List.Forall₂ (fun a b => ∀ j, |a j - b j| ≤ 1 / 100000000 + 1 / 100000 * |b j|) A C := by
  refine ⟨[![1 / 100000000], ![0]], [![0], ![2 / 100000000]], by decide +kernel,
    [![2 / 100000000], ![0]], List.Perm.swap _ _ _, ?_⟩
  refine .cons (by intro j; fin_cases j; norm_num) (.cons ?_ .nil)
  intro j; fin_cases j; norm_num

/-- C66: and it is not symmetric, because `np.isclose` is not. -/
theorem C66_not_symmetric : ∃ A B : List (Fin 1 → ℚ), allcloseUnordered A B = .ok true ∧
    allcloseUnordered B A = .ok false :=
  ⟨[![1000000]], [![1000010 + 9 / 100000]], by decide +kernel, by decide +kernel⟩

example : allcloseUnordered ([![1, 2], ![3, 4], ![1, 2]] : List (Fin 2 → ℚ)) [![3, 4], ![1, 2], ![1, 2]] 0 0 = .ok true := by
  decide +kernel

example : allcloseUnordered ([![1, 2], ![3, 4], ![1, 2]] : List (Fin 2 → ℚ)) [![3, 4], ![1, 2], ![3, 4]] = .ok false := by
  decide +kernel

end Rigeo
