import Verif.Model.Polydd3
import Verif.Props.Polydd

/-!
# C106: the variant of the double description module for pycddlib 3
-/

namespace Rigeo

open Matrix

section lists
variable {α β : Type}

theorem takeAt_ok (a : List α) (idx : List ℕ) (h : ∀ k ∈ idx, k < a.length) :
    takeAt a idx = .ok (idx.pmap (fun k hk => a.get ⟨k, hk⟩) h) := by
  induction idx with
  | nil => rfl
  | cons k idx ih =>
    have hk := h k (by simp)
    have := ih fun j hj => h j (by simp [hj])
    unfold takeAt at this ⊢
    rw [List.mapM_cons, this]
    simp only [List.getElem?_eq_getElem hk]
    rfl

theorem takeAt_error (a : List α) (idx : List ℕ) (h : ¬ ∀ k ∈ idx, k < a.length) : takeAt a idx = .error .index := by
  induction idx with
  | nil => simp at h
  | cons k idx ih =>
    unfold takeAt
    rw [List.mapM_cons]
    by_cases hk : k < a.length
    · have h' : ¬ ∀ j ∈ idx, j < a.length := fun hall => h fun j hj => by
        rcases List.mem_cons.mp hj with rfl | hj
        · exact hk
        · exact hall j hj
      have := ih h'
      unfold takeAt at this
      rw [this]
      simp only [List.getElem?_eq_getElem hk]
      rfl
    · rw [List.getElem?_eq_none (by omega)]
      rfl

theorem length_setAt (a : List α) (idx : List ℕ) (v : α) : (setAt a idx v).length = a.length := by
  unfold setAt
  induction idx generalizing a with
  | nil => rfl
  | cons k idx ih => rw [List.foldl_cons, ih, List.length_set]

theorem getElem?_setAt (a : List α) (idx : List ℕ) (v : α) (k : ℕ) :
    (setAt a idx v)[k]? = if k ∈ idx then (a[k]?).map fun _ => v else a[k]? := by
  unfold setAt
  induction idx generalizing a with
  | nil => simp
  | cons j idx ih =>
    rw [List.foldl_cons, ih, List.getElem?_set]
    by_cases hjk : j = k
    · subst hjk
      by_cases hk : j < a.length
      · simp [hk]
      · simp [hk]
    · have hkj : ¬ k = j := fun h => hjk h.symm
      simp [hjk, hkj]

/-- A mask computed from the rows and then overwritten at some positions. -/
theorem setAt_map (M : List β) (g : β → α) (idx : List ℕ) (v : α) :
    setAt (M.map g) idx v = M.zipIdx.map fun rk => if rk.2 ∈ idx then v else g rk.1 := by
  refine List.ext_getElem? fun k => ?_
  rw [getElem?_setAt, List.getElem?_map, List.getElem?_map, List.getElem?_zipIdx]
  cases h : M[k]? with
  | none => simp
  | some x => simp; split_ifs <;> rfl

end lists

section rows
variable {K : Type} {d : ℕ}

theorem map_zipIdx {α β : Type} (M : List β) (g : β → α) : M.map g = M.zipIdx.map fun rk => g rk.1 := by
  refine List.ext_getElem? fun k => ?_
  rw [List.getElem?_map, List.getElem?_map, List.getElem?_zipIdx]
  cases M[k]? <;> simp

theorem zip_zipIdx_map {α β : Type} (M : List β) (f : β × ℕ → α) (n : ℕ) :
    M.zip ((M.zipIdx n).map f) = (M.zipIdx n).map fun rk => (rk.1, f rk) := by
  induction M generalizing n with
  | nil => rfl
  | cons x M ih => simp [List.zipIdx_cons, ih]

theorem maskRows_eq (M : List (Fin (d + 1) → K)) (f : (Fin (d + 1) → K) × ℕ → Bool) :
    maskRows M (M.zipIdx.map f) = SpanForm.orNone ((M.zipIdx.filter f).map fun rk => Fin.tail rk.1) := by
  unfold maskRows SpanForm.orNone
  rw [zip_zipIdx_map, List.any_map]
  have h1 : (id ∘ f) = f := rfl
  rw [h1, List.filter_map, List.map_map]
  have h2 : ((fun xb : (Fin (d + 1) → K) × Bool => xb.2) ∘ fun rk : (Fin (d + 1) → K) × ℕ => (rk.1, f rk)) = f := rfl
  rw [h2]
  by_cases h : M.zipIdx.any f = true
  · rw [if_pos h]
    have hne : ((M.zipIdx.filter f).map fun rk => Fin.tail rk.1).isEmpty = false := by
      rw [List.any_eq_true] at h
      obtain ⟨x, hx, hfx⟩ := h
      rw [List.isEmpty_map, List.isEmpty_eq_false_iff_exists_mem]
      exact ⟨x, List.mem_filter.mpr ⟨hx, hfx⟩⟩
    rw [hne]; rfl
  · rw [if_neg h]
    have he : M.zipIdx.filter f = [] := by
      rw [List.filter_eq_nil_iff]
      intro x hx hfx
      exact h (List.any_eq_true.mpr ⟨x, hx, hfx⟩)
    rw [he]; rfl

end rows

/-- The same matrix for the other version of the library: the first entry of a row apart from the others. -/
def Cdd3Mat.old {K : Type} {d : ℕ} (m : Cdd3Mat K d) : CddMat K d := ⟨m.array.map fun r => (r 0, Fin.tail r), m.linSet⟩

section Field
variable {K : Type} [Field K] [LinearOrder K] {d : ℕ}

omit [Field K] [LinearOrder K] in
/-- The rows of the old matrix with their positions. -/
theorem zipIdx_old (M : List (Fin (d + 1) → K)) (n : ℕ) :
    (M.map fun r => ((r 0, Fin.tail r) : K × (Fin d → K))).zipIdx n = (M.zipIdx n).map fun rk => ((rk.1 0, Fin.tail rk.1), rk.2) := by
  rw [List.zipIdx_map]
  rfl

omit [Field K] [LinearOrder K] in
theorem filter_old (M : List (Fin (d + 1) → K)) (f : (K × (Fin d → K)) × ℕ → Bool) :
    (((M.map fun r => ((r 0, Fin.tail r) : K × (Fin d → K))).zipIdx.filter f).map fun rk => rk.1.2) =
      (M.zipIdx.filter fun rk => f ((rk.1 0, Fin.tail rk.1), rk.2)).map fun rk => Fin.tail rk.1 := by
  rw [zipIdx_old, List.filter_map, List.map_map]
  rfl

/-- C106: the conversion of a matrix of generators gives the same span form in both versions, for every matrix; the masks that are
overwritten at the linear rows and the emptiness test by the number of entries make no difference. -/
theorem C106_span_form (m : Cdd3Mat K d) : SpanForm.fromCdd3 m = SpanForm.fromCdd m.old := by
  obtain ⟨M, L⟩ := m
  unfold SpanForm.fromCdd3 SpanForm.fromCdd Cdd3Mat.old
  simp only [filter_old]
  simp only [List.length_map, Nat.mul_eq_zero, Nat.add_eq_zero_iff, one_ne_zero, and_false, or_false, List.map_map]
  by_cases h0 : M.length = 0
  · rw [if_pos h0, if_pos h0]
  rw [if_neg h0, if_neg h0]
  have hv : maskRows M (M.map ((fun x => isclose x 1 rtol5 tol8) ∘ fun row => row 0)) =
      SpanForm.orNone ((M.zipIdx.filter fun rk => isclose (rk.1 0) 1 rtol5 tol8).map fun rk => Fin.tail rk.1) := by
    rw [map_zipIdx M, maskRows_eq]; rfl
  by_cases hL : L = []
  · subst hL
    rw [hv]
    have hr : maskRows M (M.map ((fun x => isclose x 0 rtol5 tol8) ∘ fun row => row 0)) =
        SpanForm.orNone ((M.zipIdx.filter fun rk => isclose (rk.1 0) 0 rtol5 tol8 && !decide (rk.2 ∈ ([] : List ℕ))).map fun rk => Fin.tail rk.1) := by
      rw [map_zipIdx M, maskRows_eq]; simp
    have hs : ∀ g : (Fin (d + 1) → K) → Bool, maskRows M (M.map ((fun _ => false) ∘ g)) =
        SpanForm.orNone ((M.zipIdx.filter fun rk => decide (rk.2 ∈ ([] : List ℕ))).map fun rk => Fin.tail rk.1) := fun g => by
      rw [map_zipIdx M, maskRows_eq]; simp
    rw [hr, hs]
    rfl
  · have hpos : 0 < L.length := List.length_pos_iff.mpr hL
    rw [if_pos hpos]
    by_cases hin : ∀ k ∈ L, k < M.length
    · have hin' : ∀ k ∈ L, k < (M.map fun row => row 0).length := fun k hk => by rw [List.length_map]; exact hin k hk
      have hall : (L.all fun k => decide (k < M.length)) = true := by
        rw [List.all_eq_true]; intro k hk; exact decide_eq_true (hin k hk)
      rw [takeAt_ok _ _ hin', hall, hv]
      have hr : maskRows M (setAt (M.map ((fun x => isclose x 0 rtol5 tol8) ∘ fun row => row 0)) L false) =
          SpanForm.orNone ((M.zipIdx.filter fun rk => isclose (rk.1 0) 0 rtol5 tol8 && !decide (rk.2 ∈ L)).map fun rk => Fin.tail rk.1) := by
        rw [setAt_map, maskRows_eq]
        congr 3
        funext rk
        by_cases hk : rk.2 ∈ L <;> simp [hk]
      have hs : ∀ g : (Fin (d + 1) → K) → Bool, maskRows M (setAt (M.map ((fun _ => false) ∘ g)) L true) =
          SpanForm.orNone ((M.zipIdx.filter fun rk => decide (rk.2 ∈ L)).map fun rk => Fin.tail rk.1) := fun g => by
        rw [setAt_map, maskRows_eq]
        congr 3
      rw [hr, hs]
      have hass : ((L.pmap (fun k hk => (M.map fun row => row 0).get ⟨k, hk⟩) hin').all fun x => isclose x 0 rtol5 tol8) =
          (L.isEmpty || (M.map fun r => ((r 0, Fin.tail r) : K × (Fin d → K))).zipIdx.all fun rk =>
            !decide (rk.2 ∈ L) || isclose rk.1.1 0 rtol5 tol8) := by
        have he : L.isEmpty = false := by simpa [List.isEmpty_iff] using hL
        rw [he, Bool.false_or, Bool.eq_iff_iff, List.all_eq_true, List.all_eq_true, zipIdx_old]
        constructor
        · intro h rk hrk
          obtain ⟨⟨x, k⟩, hxk, rfl⟩ := List.mem_map.mp hrk
          by_cases hk : k ∈ L
          · obtain ⟨hk2, hx⟩ := List.mem_zipIdx' hxk
            have := h ((M.map fun row => row 0).get ⟨k, hin' k hk⟩) (List.mem_pmap.mpr ⟨k, hk, rfl⟩)
            simp only [List.get_eq_getElem, List.getElem_map] at this
            simp [hk, hx, this]
          · simp [hk]
        · intro h x hx
          obtain ⟨k, hk, rfl⟩ := List.mem_pmap.mp hx
          have hm : (M[k]'(hin k hk), k) ∈ M.zipIdx := by
            rw [List.mem_zipIdx_iff_getElem?]
            exact List.getElem?_eq_getElem (hin k hk)
          have := h _ (List.mem_map.mpr ⟨_, hm, rfl⟩)
          simpa [hk] using this
      rw [← hass]
      rfl
    · have hin' : ¬ ∀ k ∈ L, k < (M.map fun row => row 0).length := by rw [List.length_map]; exact hin
      have hall : (L.all fun k => decide (k < M.length)) = false := by
        rw [Bool.eq_false_iff]
        intro h
        rw [List.all_eq_true] at h
        exact hin fun k hk => of_decide_eq_true (h k hk)
      rw [takeAt_error _ _ hin', hall]
      rfl

/-- The rows chosen by a list of valid positions. -/
theorem mem_pmap_get {α : Type} (a : List α) (idx : List ℕ) (h : ∀ k ∈ idx, k < a.length) (x : α) :
    x ∈ idx.pmap (fun k hk => a.get ⟨k, hk⟩) h ↔ ∃ k ∈ idx, a[k]? = some x := by
  rw [List.mem_pmap]
  constructor
  · rintro ⟨k, hk, rfl⟩
    exact ⟨k, hk, List.getElem?_eq_getElem (h k hk)⟩
  · rintro ⟨k, hk, hx⟩
    refine ⟨k, hk, ?_⟩
    rw [List.getElem?_eq_getElem (h k hk)] at hx
    exact Option.some.inj hx

/-- The half-space of a row `[b, -A]` -/
def cdd3Row (r : Fin (d + 1) → K) : (Fin d → K) × K := (-Fin.tail r, r 0)

omit [LinearOrder K] in
/-- What the conversion of a matrix of inequalities computes: it raises `IndexError` if no row is an inequality or a linear position is
not a row, and otherwise lists the half-spaces of the inequalities, and those of the linear rows on both sides. -/
theorem fromCdd3_face (m : Cdd3Mat K d) :
    ((∃ k < m.array.length, k ∉ m.linSet) ∧ (∀ k ∈ m.linSet, k < m.array.length) →
      ∃ f, FaceForm.fromCdd3 m = .ok f ∧ ∀ ab, ab ∈ f.faces ↔ ∃ k r, m.array[k]? = some r ∧
        (ab = cdd3Row r ∨ (k ∈ m.linSet ∧ ab = -cdd3Row r))) ∧
    (¬ ((∃ k < m.array.length, k ∉ m.linSet) ∧ (∀ k ∈ m.linSet, k < m.array.length)) →
      FaceForm.fromCdd3 m = .error .index) := by
  obtain ⟨M, L⟩ := m
  unfold FaceForm.fromCdd3
  simp only
  have hrow : (fun r : Fin (d + 1) → K => ((-Fin.tail r : Fin d → K), r 0)) = cdd3Row := rfl
  rw [hrow]
  set I := (List.range M.length).filter fun k => !decide (k ∈ L) with hI
  have hmI : ∀ k, k ∈ I ↔ k < M.length ∧ k ∉ L := fun k => by simp [hI]
  have hIin : ∀ k ∈ I, k < (M.map (cdd3Row (K := K))).length := fun k hk => by rw [List.length_map]; exact ((hmI k).mp hk).1
  rw [takeAt_ok _ _ hIin]
  constructor
  · rintro ⟨⟨k₀, hk₀, hk₀L⟩, hin⟩
    have h0 : M.length ≠ 0 := by omega
    have hIne : I.isEmpty = false := by
      rw [List.isEmpty_eq_false_iff_exists_mem]; exact ⟨k₀, (hmI k₀).mpr ⟨hk₀, hk₀L⟩⟩
    rw [if_neg h0, hIne]
    have hLin : ∀ k ∈ L, k < (M.map (cdd3Row (K := K))).length := fun k hk => by rw [List.length_map]; exact hin k hk
    rw [takeAt_ok _ _ hLin]
    have hget : ∀ k x, (M.map (cdd3Row (K := K)))[k]? = some x ↔ ∃ r, M[k]? = some r ∧ cdd3Row r = x := fun k x => by
      rw [List.getElem?_map, Option.map_eq_some_iff]
    by_cases hL : 0 < L.length
    · refine ⟨FaceForm.init _ (some _), by simp only [if_pos hL]; rfl, fun ab => ?_⟩
      simp only [FaceForm.init, List.mem_append, List.mem_map, mem_pmap_get, hget]
      constructor
      · rintro ((⟨k, -, r, hr, rfl⟩ | ⟨k, -, r, hr, rfl⟩) | ⟨_, ⟨k, hk, r, hr, rfl⟩, rfl⟩)
        · exact ⟨k, r, hr, Or.inl rfl⟩
        · exact ⟨k, r, hr, Or.inl rfl⟩
        · exact ⟨k, r, hr, Or.inr ⟨hk, rfl⟩⟩
      · rintro ⟨k, r, hr, rfl | ⟨hk, rfl⟩⟩
        · by_cases hk : k ∈ L
          · exact Or.inl (Or.inr ⟨k, hk, r, hr, rfl⟩)
          · exact Or.inl (Or.inl ⟨k, (hmI k).mpr ⟨(List.getElem?_eq_some_iff.mp hr).1, hk⟩, r, hr, rfl⟩)
        · exact Or.inr ⟨_, ⟨k, hk, r, hr, rfl⟩, rfl⟩
    · refine ⟨FaceForm.init _ none, by simp only [if_neg hL]; rfl, fun ab => ?_⟩
      have hLe : L = [] := by
        cases L with
        | nil => rfl
        | cons a l => simp at hL
      simp only [FaceForm.init, mem_pmap_get, hget]
      constructor
      · rintro ⟨k, -, r, hr, rfl⟩
        exact ⟨k, r, hr, Or.inl rfl⟩
      · rintro ⟨k, r, hr, rfl | ⟨hk, rfl⟩⟩
        · exact ⟨k, (hmI k).mpr ⟨(List.getElem?_eq_some_iff.mp hr).1, by simp [hLe]⟩, r, hr, rfl⟩
        · simp [hLe] at hk
  · intro h
    by_cases h0 : M.length = 0
    · rw [if_pos h0]; rfl
    rw [if_neg h0]
    by_cases hI0 : I.isEmpty = true
    · rw [hI0]; rfl
    have hIne : I.isEmpty = false := by simpa using hI0
    obtain ⟨k₀, hk₀⟩ := List.isEmpty_eq_false_iff_exists_mem.mp hIne
    have hnot : ¬ ∀ k ∈ L, k < (M.map (cdd3Row (K := K))).length := by
      rw [List.length_map]
      intro hall
      exact h ⟨⟨k₀, (hmI k₀).mp hk₀⟩, hall⟩
    have hL : 0 < L.length := by
      rw [List.length_pos_iff]
      rintro rfl
      simp at hnot
    simp only [hIne, if_pos hL, takeAt_error _ _ hnot]
    rfl

omit [LinearOrder K] in
/-- The same description for the version of `polydd.py`. -/
theorem fromCdd_face (m : Cdd3Mat K d) :
    ((∃ k < m.array.length, k ∉ m.linSet) ∧ (∀ k ∈ m.linSet, k < m.array.length) →
      ∃ f, FaceForm.fromCdd m.old = .ok f ∧ ∀ ab, ab ∈ f.faces ↔ ∃ k r, m.array[k]? = some r ∧
        (ab = cdd3Row r ∨ (k ∈ m.linSet ∧ ab = -cdd3Row r))) ∧
    (¬ ((∃ k < m.array.length, k ∉ m.linSet) ∧ (∀ k ∈ m.linSet, k < m.array.length)) →
      FaceForm.fromCdd m.old = .error .index) := by
  obtain ⟨M, L⟩ := m
  unfold FaceForm.fromCdd Cdd3Mat.old
  simp only [List.length_map]
  rw [zipIdx_old]
  simp only [List.filter_map, List.map_map]
  have hrow : ((fun rk : (K × (Fin d → K)) × ℕ => ((-rk.1.2 : Fin d → K), rk.1.1)) ∘ fun rk : (Fin (d + 1) → K) × ℕ =>
      ((rk.1 0, Fin.tail rk.1), rk.2)) = fun rk => cdd3Row rk.1 := rfl
  rw [hrow]
  set I := (M.zipIdx.filter ((fun rk => !decide (rk.2 ∈ L)) ∘ fun rk : (Fin (d + 1) → K) × ℕ =>
    (((rk.1 0, Fin.tail rk.1), rk.2) : (K × (Fin d → K)) × ℕ))).map fun rk => cdd3Row rk.1 with hI
  set E := (M.zipIdx.filter ((fun rk => decide (rk.2 ∈ L)) ∘ fun rk : (Fin (d + 1) → K) × ℕ =>
    (((rk.1 0, Fin.tail rk.1), rk.2) : (K × (Fin d → K)) × ℕ))).map fun rk => cdd3Row rk.1 with hE
  have hmI : ∀ x, x ∈ I ↔ ∃ k r, M[k]? = some r ∧ k ∉ L ∧ cdd3Row r = x := fun x => by
    rw [hI, List.mem_map]
    constructor
    · rintro ⟨⟨r, k⟩, hrk, rfl⟩
      obtain ⟨h1, h2⟩ := List.mem_filter.mp hrk
      exact ⟨k, r, List.mem_zipIdx_iff_getElem?.mp h1, by simpa using h2, rfl⟩
    · rintro ⟨k, r, hr, hk, rfl⟩
      exact ⟨(r, k), List.mem_filter.mpr ⟨List.mem_zipIdx_iff_getElem?.mpr hr, by simpa using hk⟩, rfl⟩
  have hmE : ∀ x, x ∈ E ↔ ∃ k r, M[k]? = some r ∧ k ∈ L ∧ cdd3Row r = x := fun x => by
    rw [hE, List.mem_map]
    constructor
    · rintro ⟨⟨r, k⟩, hrk, rfl⟩
      obtain ⟨h1, h2⟩ := List.mem_filter.mp hrk
      exact ⟨k, r, List.mem_zipIdx_iff_getElem?.mp h1, by simpa using h2, rfl⟩
    · rintro ⟨k, r, hr, hk, rfl⟩
      exact ⟨(r, k), List.mem_filter.mpr ⟨List.mem_zipIdx_iff_getElem?.mpr hr, by simpa using hk⟩, rfl⟩
  clear_value I E
  constructor
  · rintro ⟨⟨k₀, hk₀, hk₀L⟩, hin⟩
    have h0 : M.length ≠ 0 := by omega
    have hall : (L.all fun k => decide (k < M.length)) = true := by
      rw [List.all_eq_true]; intro k hk; exact decide_eq_true (hin k hk)
    have hIne : I.isEmpty = false := by
      rw [List.isEmpty_eq_false_iff_exists_mem]
      exact ⟨_, (hmI _).mpr ⟨k₀, M[k₀], List.getElem?_eq_getElem hk₀, hk₀L, rfl⟩⟩
    rw [if_neg h0, hall, hIne]
    refine ⟨FaceForm.init I (if E.isEmpty then none else some E), rfl, fun ab => ?_⟩
    have hf : ab ∈ (FaceForm.init I (if E.isEmpty then none else some E)).faces ↔ ab ∈ I ∨ ab ∈ E ∨ ∃ e ∈ E, -e = ab := by
      by_cases hEe : E.isEmpty = true
      · rw [if_pos hEe]
        have : E = [] := List.isEmpty_iff.mp hEe
        simp [FaceForm.init, this]
      · rw [if_neg hEe]
        simp only [FaceForm.init, List.mem_append, List.mem_map, or_assoc]
        rfl
    rw [hf]
    simp only [hmI, hmE]
    constructor
    · rintro (⟨k, r, hr, -, rfl⟩ | ⟨k, r, hr, -, rfl⟩ | ⟨_, ⟨k, r, hr, hk, rfl⟩, rfl⟩)
      · exact ⟨k, r, hr, Or.inl rfl⟩
      · exact ⟨k, r, hr, Or.inl rfl⟩
      · exact ⟨k, r, hr, Or.inr ⟨hk, rfl⟩⟩
    · rintro ⟨k, r, hr, rfl | ⟨hk, rfl⟩⟩
      · by_cases hk : k ∈ L
        · exact Or.inr (Or.inl ⟨k, r, hr, hk, rfl⟩)
        · exact Or.inl ⟨k, r, hr, hk, rfl⟩
      · exact Or.inr (Or.inr ⟨_, ⟨k, r, hr, hk, rfl⟩, rfl⟩)
  · intro h
    by_cases h0 : M.length = 0
    · rw [if_pos h0]; rfl
    rw [if_neg h0]
    by_cases hall : (L.all fun k => decide (k < M.length)) = true
    · rw [hall]
      have hin : ∀ k ∈ L, k < M.length := fun k hk => of_decide_eq_true (List.all_eq_true.mp hall k hk)
      have hIe : I.isEmpty = true := by
        by_contra hne
        obtain ⟨x, hx⟩ := List.isEmpty_eq_false_iff_exists_mem.mp (by simpa using hne)
        obtain ⟨k, r, hr, hk, -⟩ := (hmI x).mp hx
        exact h ⟨⟨k, (List.getElem?_eq_some_iff.mp hr).1, hk⟩, hin⟩
      rw [hIe]
      rfl
    · have : (L.all fun k => decide (k < M.length)) = false := by simpa using hall
      rw [this]
      rfl

omit [LinearOrder K] in
/-- C106: the conversion of a matrix of inequalities gives the same half-spaces in both versions, and both raise the same exception
otherwise: if no row is an inequality, or if a linear position is not a row. (The order of the linear rows is that of `lin_set`.) -/
theorem C106_face_form (m : Cdd3Mat K d) :
    (∃ f g, FaceForm.fromCdd3 m = .ok f ∧ FaceForm.fromCdd m.old = .ok g ∧ ∀ ab, ab ∈ f.faces ↔ ab ∈ g.faces) ∨
    (FaceForm.fromCdd3 m = .error .index ∧ FaceForm.fromCdd m.old = .error .index) := by
  by_cases h : (∃ k < m.array.length, k ∉ m.linSet) ∧ (∀ k ∈ m.linSet, k < m.array.length)
  · obtain ⟨f, hf, hf'⟩ := (fromCdd3_face m).1 h
    obtain ⟨g, hg, hg'⟩ := (fromCdd_face m).1 h
    exact Or.inl ⟨f, g, hf, hg, fun ab => (hf' ab).trans (hg' ab).symm⟩
  · exact Or.inr ⟨(fromCdd3_face m).2 h, (fromCdd_face m).2 h⟩

/-- C106: the face form made from a matrix of inequalities is the set that the matrix stands for: `b + a · x ≥ 0` for every row `[b, a]`,
with equality for the linear rows. -/
theorem C106_face_set [IsStrictOrderedRing K] (m : Cdd3Mat K d) (f : FaceForm K d) (hf : FaceForm.fromCdd3 m = .ok f) (x : Fin d → K) :
    (∀ ab ∈ f.faces, ab.1 ⬝ᵥ x ≤ ab.2) ↔
      ∀ k r, m.array[k]? = some r → 0 ≤ r 0 + Fin.tail r ⬝ᵥ x ∧ (k ∈ m.linSet → r 0 + Fin.tail r ⬝ᵥ x = 0) := by
  by_cases h : (∃ k < m.array.length, k ∉ m.linSet) ∧ (∀ k ∈ m.linSet, k < m.array.length)
  · obtain ⟨g, hg, hg'⟩ := (fromCdd3_face m).1 h
    rw [hf] at hg
    cases hg
    have h1 : ∀ r : Fin (d + 1) → K, (cdd3Row r).1 ⬝ᵥ x ≤ (cdd3Row r).2 ↔ 0 ≤ r 0 + Fin.tail r ⬝ᵥ x := fun r => by
      simp only [cdd3Row, neg_dotProduct]
      constructor <;> intro h <;> linarith
    have h2 : ∀ r : Fin (d + 1) → K, (-cdd3Row r).1 ⬝ᵥ x ≤ (-cdd3Row r).2 ↔ r 0 + Fin.tail r ⬝ᵥ x ≤ 0 := fun r => by
      simp only [cdd3Row, Prod.fst_neg, Prod.snd_neg, neg_dotProduct]
      constructor <;> intro h <;> linarith
    constructor
    · intro hall k r hr
      have ha := (h1 r).mp (hall _ ((hg' _).mpr ⟨k, r, hr, Or.inl rfl⟩))
      exact ⟨ha, fun hk => le_antisymm ((h2 r).mp (hall _ ((hg' _).mpr ⟨k, r, hr, Or.inr ⟨hk, rfl⟩⟩))) ha⟩
    · intro hall ab hab
      obtain ⟨k, r, hr, rfl | ⟨hk, rfl⟩⟩ := (hg' ab).mp hab
      · exact (h1 r).mpr (hall k r hr).1
      · exact (h2 r).mpr ((hall k r hr).2 hk).le
  · rw [(fromCdd3_face m).2 h] at hf
    cases hf

/-- C106: conversely, the matrices handed to the library are those of the other version. -/
theorem C106_to_cdd (s : SpanForm K d) (f : FaceForm K d) :
    (s.toCdd3.map Cdd3Mat.old = s.toCdd) ∧ f.toCdd3.old = f.toCdd := by
  constructor
  · unfold SpanForm.toCdd3 SpanForm.toCdd
    split_ifs
    · rfl
    · simp only [Except.map, Cdd3Mat.old, List.map_append, List.map_map]
      congr 2
  · unfold FaceForm.toCdd3 FaceForm.toCdd Cdd3Mat.old
    simp only [List.map_map]
    congr 1

/-- Two versions of the library that compute the same matrices. -/
structure SameLib (c3 : Cdd3Lib K) (c : CddLib K) : Prop where
  inequalities : ∀ {d : ℕ} (m : Cdd3Mat K d), (c3.inequalities m).old = c.inequalities m.old
  generators : ∀ {d : ℕ} (m : Cdd3Mat K d), (c3.generators m).old = c.generators m.old
  canonicalizeGen : ∀ {d : ℕ} (m : Cdd3Mat K d), (c3.canonicalizeGen m).old = c.canonicalizeGen m.old
  canonicalizeIneq : ∀ {d : ℕ} (m : Cdd3Mat K d), (c3.canonicalizeIneq m).old = c.canonicalizeIneq m.old

/-- C106: for versions of the library that compute the same matrices, the canonical span form, the span form of a face form and the
convex hull of points are the same values in both files. -/
theorem C106_spans (c3 : Cdd3Lib K) (c : CddLib K) (h : SameLib c3 c) (s : SpanForm K d) (f : FaceForm K d) (points : List (Fin d → K)) :
    s.canonical3 c3 = s.canonical c ∧ f.toSpanForm3 c3 = f.toSpanForm c ∧ convexHullPoints3 c3 points = convexHullPoints c points := by
  have hc : ∀ s : SpanForm K d, s.canonical3 c3 = s.canonical c := fun s => by
    unfold SpanForm.canonical3 SpanForm.canonical
    rw [← (C106_to_cdd s f).1]
    cases s.toCdd3 with
    | error e => rfl
    | ok m =>
      show SpanForm.fromCdd3 (c3.canonicalizeGen m) = SpanForm.fromCdd (c.canonicalizeGen m.old)
      rw [C106_span_form, h.canonicalizeGen]
  refine ⟨hc s, ?_, ?_⟩
  · unfold FaceForm.toSpanForm3 FaceForm.toSpanForm
    rw [C106_span_form, h.generators, (C106_to_cdd s f).2]
  · unfold convexHullPoints3 convexHullPoints
    rw [hc]
    rfl

/-- C106: and the canonical face form and the face form of a span form have the same half-spaces in both files, or both raise the
same exception. -/
theorem C106_faces (c3 : Cdd3Lib K) (c : CddLib K) (h : SameLib c3 c) (s : SpanForm K d) (f : FaceForm K d) :
    ((∃ f₃ f₂, f.canonical3 c3 = .ok f₃ ∧ f.canonical c = .ok f₂ ∧ ∀ ab, ab ∈ f₃.faces ↔ ab ∈ f₂.faces) ∨
      ∃ e, f.canonical3 c3 = .error e ∧ f.canonical c = .error e) ∧
    ((∃ f₃ f₂, s.toFaceForm3 c3 = .ok f₃ ∧ s.toFaceForm c = .ok f₂ ∧ ∀ ab, ab ∈ f₃.faces ↔ ab ∈ f₂.faces) ∨
      ∃ e, s.toFaceForm3 c3 = .error e ∧ s.toFaceForm c = .error e) := by
  constructor
  · unfold FaceForm.canonical3 FaceForm.canonical
    rw [← (C106_to_cdd s f).2, ← h.canonicalizeIneq]
    rcases C106_face_form (c3.canonicalizeIneq f.toCdd3) with ⟨f₃, f₂, h3, h2, hm⟩ | ⟨h3, h2⟩
    · exact Or.inl ⟨f₃, f₂, h3, h2, hm⟩
    · exact Or.inr ⟨_, h3, h2⟩
  · unfold SpanForm.toFaceForm3 SpanForm.toFaceForm
    rw [← (C106_to_cdd s f).1]
    cases s.toCdd3 with
    | error e => exact Or.inr ⟨e, rfl, rfl⟩
    | ok m =>
      show (∃ f₃ f₂, FaceForm.fromCdd3 (c3.inequalities m) = .ok f₃ ∧ FaceForm.fromCdd (c.inequalities m.old) = .ok f₂ ∧ _) ∨
        ∃ e, FaceForm.fromCdd3 (c3.inequalities m) = .error e ∧ FaceForm.fromCdd (c.inequalities m.old) = .error e
      rw [← h.inequalities]
      rcases C106_face_form (c3.inequalities m) with ⟨f₃, f₂, h3, h2, hm⟩ | ⟨h3, h2⟩
      · exact Or.inl ⟨f₃, f₂, h3, h2, hm⟩
      · exact Or.inr ⟨_, h3, h2⟩

/-- Every library of one version has one of the other version that computes the same matrices. -/
theorem sameLib_exists (c : CddLib K) : ∃ c3 : Cdd3Lib K, SameLib c3 c := by
  let new : {d : ℕ} → CddMat K d → Cdd3Mat K d := fun m => ⟨m.rows.map fun r => Fin.cons r.1 r.2, m.lin⟩
  have hnew : ∀ {d : ℕ} (m : CddMat K d), (new m).old = m := fun m => by
    obtain ⟨rows, lin⟩ := m
    simp only [new, Cdd3Mat.old, List.map_map]
    congr 1
    conv_rhs => rw [← List.map_id rows]
    congr 1
  exact ⟨⟨fun m => new (c.inequalities m.old), fun m => new (c.generators m.old), fun m => new (c.canonicalizeGen m.old),
    fun m => new (c.canonicalizeIneq m.old)⟩, ⟨fun m => hnew _, fun m => hnew _, fun m => hnew _, fun m => hnew _⟩⟩

/-- The matrix of the inequalities `x ≥ 0`, `1 - x ≥ 0` and the equation `y = 2` in the plane meets the hypothesis of
`C106_face_set`. -/
example : ∃ f, FaceForm.fromCdd3 (⟨[![0, 1, 0], ![1, -1, 0], ![2, 0, -1]], [2]⟩ : Cdd3Mat ℚ 2) = .ok f :=
  let ⟨f, hf, _⟩ := (fromCdd3_face (⟨[![0, 1, 0], ![1, -1, 0], ![2, 0, -1]], [2]⟩ : Cdd3Mat ℚ 2)).1
    ⟨⟨0, by decide, by decide⟩, by decide⟩
  ⟨f, hf⟩

end Field
end Rigeo
