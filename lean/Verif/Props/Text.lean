import Verif.Model.Text
import Verif.Props.Moment2
import Verif.Props.MomentIndex

/-!
# C120: the text of moment indices and polynomials
-/

namespace Spec

/-- The text of a number can be read back and contains no space. -/
def ReadableText {K : Type} (text : K → List Char) : Prop := Function.Injective text ∧ ∀ c, ' ' ∉ text c

end Spec

namespace Rigeo

open Matrix

theorem toChars_cons (k : ℕ) (v : DynIndex) : DynIndex.toChars (k :: v) = Nat.toDigits 10 k ++ DynIndex.toChars v := by
  simp [DynIndex.toChars]

theorem toChars_length_digits {v : DynIndex} (h : ∀ k ∈ v, k ≤ 9) : (DynIndex.toChars v).length = v.length := by
  induction v with
  | nil => rfl
  | cons k v ih =>
    rw [toChars_cons, Nat.toDigits_of_lt_base (by have := h k (by simp); omega)]
    simp [ih fun j hj => h j (by simp [hj])]

theorem digitChar_inj {a b : ℕ} (ha : a < 10) (hb : b < 10) (h : a.digitChar = b.digitChar) : a = b := by
  interval_cases a <;> interval_cases b <;> first | rfl | (exact absurd h (by decide))

theorem toChars_ten (v w : DynIndex) (b : ℕ) (hb : b ≤ 9) (hl : v.length = w.length) (hv : v.sum ≤ 0) (hw : b + w.sum ≤ 10) :
    DynIndex.toChars (10 :: v) ≠ DynIndex.toChars (b :: w) := by
  intro h
  have h10 : Nat.toDigits 10 10 = ['1', '0'] := by decide
  rw [toChars_cons, toChars_cons, h10, Nat.toDigits_of_lt_base (by omega : b < 10)] at h
  simp only [List.cons_append, List.nil_append, List.cons.injEq] at h
  have hb1 : 1 = b := digitChar_inj (by omega) (by omega) h.1
  have h2 := congrArg List.length h.2
  have hv0 : ∀ k ∈ v, k ≤ 9 := fun k hk => by have := List.le_sum_of_mem hk; omega
  have hw0 : ∀ k ∈ w, k ≤ 9 := fun k hk => by have := List.le_sum_of_mem hk; omega
  rw [List.length_cons, toChars_length_digits hv0, toChars_length_digits hw0] at h2
  omega

theorem toChars_inj_degree : ∀ (v w : DynIndex), v.length = w.length → v.sum ≤ 10 → w.sum ≤ 10 →
    DynIndex.toChars v = DynIndex.toChars w → v = w
  | [], [], _, _, _, _ => rfl
  | [], _ :: _, h, _, _, _ => by simp at h
  | _ :: _, [], h, _, _, _ => by simp at h
  | a :: v, b :: w, hl, hv, hw, h => by
    simp only [List.length_cons, Nat.add_right_cancel_iff] at hl
    simp only [List.sum_cons] at hv hw
    rcases Nat.lt_or_ge a 10 with ha | ha
    · rcases Nat.lt_or_ge b 10 with hb | hb
      · rw [toChars_cons, toChars_cons, Nat.toDigits_of_lt_base ha, Nat.toDigits_of_lt_base hb] at h
        simp only [List.cons_append, List.nil_append, List.cons.injEq] at h
        rw [digitChar_inj ha hb h.1, toChars_inj_degree v w hl (by omega) (by omega) h.2]
      · obtain rfl : b = 10 := by omega
        exact absurd h.symm (toChars_ten w v a (by omega) hl.symm (by omega) (by omega))
    · obtain rfl : a = 10 := by omega
      rcases Nat.lt_or_ge b 10 with hb | hb
      · exact absurd h (toChars_ten v w b (by omega) hl (by omega) (by omega))
      · obtain rfl : b = 10 := by omega
        rw [toChars_cons, toChars_cons] at h
        rw [toChars_inj_degree v w hl (by omega) (by omega) (List.append_cancel_left h)]

theorem toChars_inj_one (a b : ℕ) (h : DynIndex.toChars [a] = DynIndex.toChars [b]) : a = b := by
  simp only [DynIndex.toChars, List.flatMap_cons, List.flatMap_nil, List.append_nil] at h
  rw [← Nat.ofDigitChars_ten_toDigits (n := a), h, Nat.ofDigitChars_ten_toDigits]

/-- C120: two indices over the same variables with degree at most 10 have different texts unless they are equal. -/
theorem C120_index {n : ℕ} (u v : Fin n → ℕ) (hu : ∑ i, u i ≤ 10) (hv : ∑ i, v i ≤ 10) :
    DynIndex.toChars (List.ofFn u) = DynIndex.toChars (List.ofFn v) ↔ u = v := by
  refine ⟨fun h => ?_, fun h => by rw [h]⟩
  refine List.ofFn_injective (toChars_inj_degree _ _ (by simp) ?_ ?_ h) <;> rw [List.sum_ofFn] <;> assumption

/-- C120: the same for indices whose exponents all have one digit. -/
theorem C120_index_digits {n : ℕ} (u v : Fin n → ℕ) (hu : ∀ i, u i ≤ 9) (hv : ∀ i, v i ≤ 9) :
    DynIndex.toChars (List.ofFn u) = DynIndex.toChars (List.ofFn v) ↔ u = v := by
  refine ⟨fun h => ?_, fun h => by rw [h]⟩
  have h1 := (C100_string_roundtrip (List.ofFn u)).2 (by simpa [List.forall_mem_ofFn_iff] using hu)
  have h2 := (C100_string_roundtrip (List.ofFn v)).2 (by simpa [List.forall_mem_ofFn_iff] using hv)
  rw [h, h2] at h1
  exact (List.ofFn_injective (by injection h1)).symm

/-- C120: with two or more variables there are two indices of degree 11 that have the same text. -/
theorem C120_index_ambiguous (n : ℕ) : ∃ u v : Fin (n + 2) → ℕ, ∑ i, u i = 11 ∧ ∑ i, v i = 11 ∧ u ≠ v ∧
    DynIndex.toChars (List.ofFn u) = DynIndex.toChars (List.ofFn v) := by
  refine ⟨Matrix.vecCons 1 (Matrix.vecCons 10 0), Matrix.vecCons 11 (Matrix.vecCons 0 0), ?_, ?_, ?_, ?_⟩
  · simp [Fin.sum_univ_succ]
  · simp [Fin.sum_univ_succ]
  · intro h
    have := congrFun h 0
    simp at this
  · rw [List.ofFn_succ, List.ofFn_succ, List.ofFn_succ, List.ofFn_succ]
    rw [toChars_cons, toChars_cons, toChars_cons, toChars_cons, ← List.append_assoc, ← List.append_assoc]
    congr 1
    show Nat.toDigits 10 1 ++ Nat.toDigits 10 10 = Nat.toDigits 10 11 ++ Nat.toDigits 10 0
    decide

/-- C120: in a moment matrix of order `d` in `n` variables, entries with the same text are the same moment exactly if `n ≤ 1` or
`d ≤ 5`. -/
theorem C120_matrix (n d : ℕ) (hd : 1 ≤ d) :
    (∀ i j k l : Fin (Polynomial.dim n d), DynIndex.toChars (List.ofFn (MomentMatrix.indices n d i j)) =
      DynIndex.toChars (List.ofFn (MomentMatrix.indices n d k l)) → MomentMatrix.indices n d i j = MomentMatrix.indices n d k l) ↔
      n ≤ 1 ∨ d ≤ 5 := by
  constructor
  · intro h
    by_contra hc
    obtain ⟨m, rfl⟩ : ∃ m, n = m + 2 := ⟨n - 2, by omega⟩
    obtain ⟨u, v, hu, hv, hne, ht⟩ := C120_index_ambiguous m
    obtain ⟨i, j, -, hij⟩ := exists_indices hd u (by omega)
    obtain ⟨k, l, -, hkl⟩ := exists_indices hd v (by omega)
    exact hne (by rw [← hij, ← hkl]; exact h i j k l (by rw [hij, hkl, ht]))
  · rintro (h | h) i j k l ht
    · interval_cases n
      · exact Subsingleton.elim _ _
      · have := toChars_inj_one _ _ (by simpa using ht)
        funext x
        rw [Subsingleton.elim x 0]
        exact this
    · exact (C120_index _ _ ((indices_deg hd i j).trans (by omega)) ((indices_deg hd k l).trans (by omega))).1 ht

/-! ### Polynomials -/

section Polynomials
variable {K : Type} {n : ℕ}

theorem space_split {u u' s s' : List Char} (hu : ' ' ∉ u) (hu' : ' ' ∉ u') (hs : s = [] ∨ ∃ r, s = ' ' :: r)
    (hs' : s' = [] ∨ ∃ r, s' = ' ' :: r) (h : u ++ s = u' ++ s') : u = u' ∧ s = s' := by
  induction u generalizing u' with
  | nil =>
    cases u' with
    | nil => exact ⟨rfl, h⟩
    | cons c u' =>
      exfalso
      rcases hs with rfl | ⟨r, rfl⟩
      · simp at h
      · simp only [List.nil_append, List.cons_append, List.cons.injEq] at h
        exact hu' (by rw [← h.1]; exact List.mem_cons_self)
  | cons c u ih =>
    cases u' with
    | nil =>
      exfalso
      rcases hs' with rfl | ⟨r, rfl⟩
      · simp at h
      · simp only [List.nil_append, List.cons_append, List.cons.injEq] at h
        exact hu (by rw [h.1]; exact List.mem_cons_self)
    | cons c' u' =>
      simp only [List.cons_append, List.cons.injEq] at h
      obtain ⟨h1, h2⟩ := ih (fun hm => hu (List.mem_cons_of_mem _ hm)) (fun hm => hu' (List.mem_cons_of_mem _ hm)) h.2
      exact ⟨by rw [h.1, h1], h2⟩

theorem toChars_no_space (v : DynIndex) : ' ' ∉ DynIndex.toChars v := by
  intro h
  obtain ⟨k, -, hk⟩ := List.mem_flatMap.1 h
  exact absurd (Nat.isDigit_of_mem_toDigits (by decide) (by decide) hk) (by decide)

/-- What follows a term: nothing, or a space. -/
theorem joinTerms_cons (s : List Char) (l : List (List Char)) : ∃ r, Polynomial.joinTerms (s :: l) = s ++ r ∧
    ((l = [] ∧ r = []) ∨ (l ≠ [] ∧ r = " + ".toList ++ Polynomial.joinTerms l)) := by
  cases l with
  | nil => exact ⟨[], by simp [Polynomial.joinTerms], Or.inl ⟨rfl, rfl⟩⟩
  | cons t l => exact ⟨_, rfl, Or.inr ⟨by simp, rfl⟩⟩

theorem term_split {text : K → List Char} (ht : Spec.ReadableText text) {a b : (Fin n → ℕ) × K} {r r' : List Char}
    (hr : r = [] ∨ ∃ q, r = ' ' :: q) (hr' : r' = [] ∨ ∃ q, r' = ' ' :: q)
    (h : Polynomial.termText text a ++ r = Polynomial.termText text b ++ r') :
    a.2 = b.2 ∧ DynIndex.toChars (List.ofFn a.1) = DynIndex.toChars (List.ofFn b.1) ∧ r = r' := by
  have hx : " * x^".toList = [' ', '*', ' ', 'x', '^'] := by decide
  simp only [Polynomial.termText, List.append_assoc, hx, List.cons_append, List.nil_append] at h
  obtain ⟨h1, h2⟩ := space_split (ht.2 _) (ht.2 _) (Or.inr ⟨_, rfl⟩) (Or.inr ⟨_, rfl⟩) h
  simp only [List.cons.injEq, true_and] at h2
  obtain ⟨h3, h4⟩ := space_split (toChars_no_space _) (toChars_no_space _) hr hr' h2
  exact ⟨ht.1 h1, h3, h4⟩

/-- C120: the text of a polynomial determines the coefficients and the texts of the indices, in their order. -/
theorem C120_terms (text : K → List Char) (ht : Spec.ReadableText text) (p q : Polynomial K n) :
    p.toChars text = q.toChars text ↔
      p.coefficients.map (fun kc => (DynIndex.toChars (List.ofFn kc.1), kc.2)) =
        q.coefficients.map (fun kc => (DynIndex.toChars (List.ofFn kc.1), kc.2)) := by
  obtain ⟨p⟩ := p
  obtain ⟨q⟩ := q
  simp only [Polynomial.toChars]
  induction p generalizing q with
  | nil =>
    cases q with
    | nil => simp
    | cons b q =>
      obtain ⟨r, h1, -⟩ := joinTerms_cons (Polynomial.termText text b) (q.map (Polynomial.termText text))
      rw [List.map_cons, h1]
      simp [Polynomial.joinTerms, Polynomial.termText]
  | cons a p ih =>
    obtain ⟨r, h1, hr⟩ := joinTerms_cons (Polynomial.termText text a) (p.map (Polynomial.termText text))
    cases q with
    | nil =>
      rw [List.map_cons, h1]
      simp [Polynomial.joinTerms, Polynomial.termText]
    | cons b q =>
      obtain ⟨r', h2, hr'⟩ := joinTerms_cons (Polynomial.termText text b) (q.map (Polynomial.termText text))
      rw [List.map_cons, List.map_cons, h1, h2, List.map_cons, List.map_cons, List.cons.injEq, ← ih q, Prod.mk.injEq]
      have hsp : ∀ {r : List Char} {l : List (List Char)},
          ((l = [] ∧ r = []) ∨ (l ≠ [] ∧ r = " + ".toList ++ Polynomial.joinTerms l)) → r = [] ∨ ∃ q, r = ' ' :: q := by
        rintro r l (⟨-, rfl⟩ | ⟨-, rfl⟩)
        · exact Or.inl rfl
        · exact Or.inr ⟨_, rfl⟩
      constructor
      · intro h
        obtain ⟨h3, h4, h5⟩ := term_split ht (hsp hr) (hsp hr') h
        refine ⟨⟨h4, h3⟩, ?_⟩
        rcases hr with ⟨hp, rfl⟩ | ⟨hp, rfl⟩ <;> rcases hr' with ⟨hq, rfl⟩ | ⟨hq, rfl⟩
        · rw [hp, hq]
        · simp at h5
        · simp at h5
        · exact List.append_cancel_left h5
      · rintro ⟨⟨h3, h4⟩, h5⟩
        have hne : ∀ l : List ((Fin n → ℕ) × K), Polynomial.joinTerms (l.map (Polynomial.termText text)) = [] → l = [] := by
          intro l hl
          cases l with
          | nil => rfl
          | cons c l =>
            obtain ⟨r, h6, -⟩ := joinTerms_cons (Polynomial.termText text c) (l.map (Polynomial.termText text))
            rw [List.map_cons, h6] at hl
            simp [Polynomial.termText] at hl
        have hab : Polynomial.termText text a = Polynomial.termText text b := by
          simp only [Polynomial.termText, h3, h4]
        rw [hab]
        congr 1
        rcases hr with ⟨hp, rfl⟩ | ⟨hp, rfl⟩ <;> rcases hr' with ⟨hq, rfl⟩ | ⟨hq, rfl⟩
        · rfl
        · rw [hp] at h5
          have := hne q h5.symm
          simp [this] at hq
        · rw [hq] at h5
          have := hne p h5
          simp [this] at hp
        · rw [h5]

/-- C120: if all exponents of two polynomials have degree at most 10, or there is only one variable, they have the same text exactly
if they have the same dictionary, in the same order. -/
theorem C120_polynomial (text : K → List Char) (ht : Spec.ReadableText text) (p q : Polynomial K n)
    (hp : n ≤ 1 ∨ ∀ kc ∈ p.coefficients, ∑ i, kc.1 i ≤ 10) (hq : n ≤ 1 ∨ ∀ kc ∈ q.coefficients, ∑ i, kc.1 i ≤ 10) :
    p.toChars text = q.toChars text ↔ p.coefficients = q.coefficients := by
  rw [C120_terms text ht]
  refine ⟨fun h => ?_, fun h => by rw [h]⟩
  obtain ⟨p⟩ := p
  obtain ⟨q⟩ := q
  simp only at *
  induction p generalizing q with
  | nil => cases q <;> simp_all
  | cons a p ih =>
    cases q with
    | nil => simp at h
    | cons b q =>
      simp only [List.map_cons, List.cons.injEq, Prod.mk.injEq] at h
      have h1 : a.1 = b.1 := by
        rcases hp with hn | hp
        · interval_cases n
          · exact Subsingleton.elim _ _
          · have := toChars_inj_one _ _ (by simpa using h.1.1)
            funext x
            rw [Subsingleton.elim x 0]
            exact this
        · rcases hq with hn | hq
          · interval_cases n
            · exact Subsingleton.elim _ _
            · have := toChars_inj_one _ _ (by simpa using h.1.1)
              funext x
              rw [Subsingleton.elim x 0]
              exact this
          · exact (C120_index _ _ (hp a (by simp)) (hq b (by simp))).1 h.1.1
      rw [Prod.ext h1 h.1.2, ih (hp.imp_right fun h kc hk => h kc (by simp [hk])) q
        (hq.imp_right fun h kc hk => h kc (by simp [hk])) h.2]

/-- C120: from degree 11 on, two different polynomials in two or more variables can have the same text. -/
theorem C120_polynomial_ambiguous (text : K → List Char) (c : K) (n : ℕ) : ∃ p q : Polynomial K (n + 2),
    p.coefficients ≠ q.coefficients ∧ p.toChars text = q.toChars text ∧ (∀ kc ∈ p.coefficients, ∑ i, kc.1 i = 11) ∧
      ∀ kc ∈ q.coefficients, ∑ i, kc.1 i = 11 := by
  obtain ⟨u, v, hu, hv, hne, h⟩ := C120_index_ambiguous n
  refine ⟨⟨[(u, c)]⟩, ⟨[(v, c)]⟩, ?_, ?_, ?_, ?_⟩
  · intro he
    simp only [List.cons.injEq, Prod.mk.injEq, and_true] at he
    exact hne he
  · simp only [Polynomial.toChars, Polynomial.termText, Polynomial.joinTerms, List.map_cons, List.map_nil, h]
  · simp [hu]
  · simp [hv]

end Polynomials

/-! ### The hypotheses can be met -/

/-- Decimal text of natural numbers is readable, and two polynomials of degree at most 10. -/
example : Spec.ReadableText (fun k : ℕ => Nat.toDigits 10 k) ∧
    (∀ kc ∈ (⟨[(![1, 9], 2), (![0, 0], 3)]⟩ : Polynomial ℕ 2).coefficients, ∑ i, kc.1 i ≤ 10) ∧
    (⟨[(![1, 9], 2), (![0, 0], 3)]⟩ : Polynomial ℕ 2).toChars (fun k => Nat.toDigits 10 k) = "2 * x^19 + 3 * x^00".toList := by
  refine ⟨⟨fun a b h => ?_, fun c h => ?_⟩, by simp [Fin.sum_univ_two], by decide⟩
  · rw [← Nat.ofDigitChars_ten_toDigits (n := a), ← Nat.ofDigitChars_ten_toDigits (n := b)]
    exact congrArg (Nat.ofDigitChars 10 · 0) h
  · exact absurd (Nat.isDigit_of_mem_toDigits (by decide) (by decide) h) (by decide)

end Rigeo
