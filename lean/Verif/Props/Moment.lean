import Verif.Lemmas.Moment
import Verif.Lemmas.PSD
import Mathlib.Tactic.FieldSimp
import Mathlib.Tactic.Linarith

/-!
# Properties of `moment.py` (C20 to C24)
-/

namespace Rigeo

open Matrix

/-! ## C20: the monomial basis -/

/-- C20: for `d ≥ 1` the basis lists every multi-index of total degree at most `d` exactly once. -/
theorem C20_basis (n d : ℕ) (hd : 1 ≤ d) :
    ∃ L : List (Fin n → ℕ), Polynomial.basis n d = L.map some ∧ L.Nodup ∧
      ∀ α, α ∈ L ↔ ∑ i, α i ≤ d := by
  refine ⟨_, basis_eq n d hd, cwrSums_basis_nodup _ _ (List.nodup_finRange n), fun α => ?_⟩
  rw [mem_cwrSums_basis _ _ (List.nodup_finRange n)]
  simp

/-- C20: the basis has `Polynomial.dim(n, d)` elements. -/
theorem C20_length (n d : ℕ) : (Polynomial.basis n d).length = Polynomial.dim n d := by
  have := cwrSums_length n d
  unfold cwrSums units at this
  rw [List.length_map] at this
  rw [Polynomial.basis, List.length_map, this]
  rfl

/-- C20: the basis starts with the constant, followed by the coordinates. -/
theorem C20_start (n d : ℕ) (hd : 1 ≤ d) :
    (some 0 :: (List.finRange n).map fun i => some (Pi.single i 1)) <+: Polynomial.basis n d := by
  rw [basis_eq n d hd]
  have := cwrSums_prefix (units (List.finRange n)) hd
  rw [cwrSums_one] at this
  have := this.map some
  simpa [units, Function.comp_def] using this

/-- C20: the basis of a lower degree is a prefix. -/
theorem C20_prefix (n d' d : ℕ) (h1 : 1 ≤ d') (h : d' ≤ d) :
    Polynomial.basis n d' <+: Polynomial.basis n d := by
  rw [basis_eq n d' h1, basis_eq n d (h1.trans h)]
  exact (cwrSums_prefix _ h).map some

/-- C20: for `d = 0` the list is `[0]` with the *integer* `0`, which is not a multi-index. -/
theorem C20_degree_zero (n : ℕ) : Polynomial.basis n 0 = [none] := by
  simp [Polynomial.basis, combosWithReplacement, sumIndices]

/-! ## C21: polynomial arithmetic -/

section Field
variable {K : Type} [Field K] [LinearOrder K] [IsStrictOrderedRing K] {n : ℕ}

/-- The stored keys are distinct and the stored coefficients are nonzero. -/
def Polynomial.WF (p : Polynomial K n) : Prop :=
  (p.coefficients.map Prod.fst).Nodup ∧ ∀ kc ∈ p.coefficients, kc.2 ≠ 0

/-- The coefficient of a monomial, zero if it is not stored. -/
def Polynomial.coeff (p : Polynomial K n) (k : Fin n → ℕ) : K := (dictGet p.coefficients k).getD 0

/-- C21: every polynomial built by the constructor has unique keys and nonzero coefficients. -/
theorem C21_wf (items : List ((Fin n → ℕ) × K)) (tol : K) (htol : 0 ≤ tol) : (Polynomial.init items tol).WF := by
  unfold Polynomial.init
  suffices h : ∀ acc : List ((Fin n → ℕ) × K), (⟨acc⟩ : Polynomial K n).WF →
      (⟨items.foldl (fun acc kc => if isclose kc.2 0 0 tol then acc else dictSet acc kc.1 kc.2) acc⟩ :
        Polynomial K n).WF by
    exact h [] ⟨List.nodup_nil, by simp⟩
  induction items with
  | nil => exact fun acc h => h
  | cons kc items ih =>
    intro acc h
    rw [List.foldl_cons]
    refine ih _ ?_
    split_ifs with hc
    · exact h
    · refine ⟨dictSet_nodup _ _ _ h.1, fun x hx => ?_⟩
      rcases dictSet_mem hx with rfl | hx
      · intro h0
        apply hc
        have h0' : kc.2 = 0 := h0
        simp [isclose, h0', htol]
      · exact h.2 x hx

theorem isclose_zero_zero (a : K) : isclose a 0 0 0 = true ↔ a = 0 := by
  simp [isclose]

/-- With distinct keys the constructor keeps exactly the nonzero coefficients. -/
theorem init_coefficients (items : List ((Fin n → ℕ) × K)) (h : (items.map Prod.fst).Nodup) :
    (Polynomial.init items).coefficients = items.filter fun kc => kc.2 ≠ 0 := by
  unfold Polynomial.init
  suffices hs : ∀ acc : List ((Fin n → ℕ) × K), (acc.map Prod.fst ++ items.map Prod.fst).Nodup →
      items.foldl (fun acc kc => if isclose kc.2 0 0 0 then acc else dictSet acc kc.1 kc.2) acc =
        acc ++ items.filter fun kc => kc.2 ≠ 0 by
    simpa using hs [] (by simpa using h)
  induction items with
  | nil => simp
  | cons kc items ih =>
    intro acc hacc
    rw [List.foldl_cons]
    have hk : kc.1 ∉ acc.map Prod.fst := fun hmem =>
      (List.nodup_append'.mp hacc).2.2 hmem (by simp)
    by_cases h0 : kc.2 = 0
    · rw [if_pos ((isclose_zero_zero _).mpr h0), ih]
      · simp [h0]
      · exact (List.nodup_cons.mp h).2
      · refine hacc.sublist ?_
        exact List.Sublist.append (List.Sublist.refl _) (by simp)
    · rw [if_neg (fun hc => h0 ((isclose_zero_zero _).mp hc)), dictSet_of_not_mem _ _ _ hk, ih]
      · simp [h0]
      · exact (List.nodup_cons.mp h).2
      · simpa using hacc

theorem sum_filter_ne (items : List ((Fin n → ℕ) × K)) (f : (Fin n → ℕ) → K) :
    ((items.filter fun kc => kc.2 ≠ 0).map fun kc => kc.2 * f kc.1).sum = (items.map fun kc => kc.2 * f kc.1).sum := by
  induction items with
  | nil => rfl
  | cons kc items ih =>
    by_cases h0 : kc.2 = 0
    · rw [List.filter_cons_of_neg (by simp [h0]), ih]; simp [h0]
    · rw [List.filter_cons_of_pos (by simp [h0]), List.map_cons, List.sum_cons, ih, List.map_cons, List.sum_cons]

theorem init_evaluate (items : List ((Fin n → ℕ) × K)) (h : (items.map Prod.fst).Nodup) (x : Fin n → K) :
    (Polynomial.init items).evaluate x = (items.map fun kc => kc.2 * ∏ i, x i ^ kc.1 i).sum := by
  unfold Polynomial.evaluate
  rw [init_coefficients _ h]
  exact sum_filter_ne items fun k => ∏ i, x i ^ k i

/-- The dictionary update of `__add__`. -/
def addStep (acc : List ((Fin n → ℕ) × K)) (kc : (Fin n → ℕ) × K) : List ((Fin n → ℕ) × K) :=
  match dictGet acc kc.1 with
  | some v => dictSet acc kc.1 (v + kc.2)
  | none => dictSet acc kc.1 kc.2

theorem addStep_nodup (acc : List ((Fin n → ℕ) × K)) (kc : (Fin n → ℕ) × K) (h : (acc.map Prod.fst).Nodup) :
    ((addStep acc kc).map Prod.fst).Nodup := by
  unfold addStep
  split <;> exact dictSet_nodup _ _ _ h

theorem addStep_sum (acc : List ((Fin n → ℕ) × K)) (kc : (Fin n → ℕ) × K) (f : (Fin n → ℕ) → K) :
    ((addStep acc kc).map fun kc => kc.2 * f kc.1).sum = (acc.map fun kc => kc.2 * f kc.1).sum + kc.2 * f kc.1 := by
  unfold addStep
  induction acc with
  | nil => simp [dictGet, dictSet]
  | cons a acc ih =>
    by_cases h : a.1 = kc.1
    · simp [dictGet, dictSet, h]; ring
    · simp only [dictGet, dictSet, if_neg h]
      cases hg : dictGet acc kc.1 with
      | none =>
        rw [hg] at ih
        simp only [List.map_cons, List.sum_cons] at ih ⊢
        rw [ih]; ring
      | some v =>
        rw [hg] at ih
        simp only [List.map_cons, List.sum_cons] at ih ⊢
        rw [ih]; ring

theorem addStep_get (acc : List ((Fin n → ℕ) × K)) (kc : (Fin n → ℕ) × K) (k : Fin n → ℕ) :
    (dictGet (addStep acc kc) k).getD 0 = (dictGet acc k).getD 0 + if kc.1 = k then kc.2 else 0 := by
  unfold addStep
  cases hg : dictGet acc kc.1 with
  | none =>
    simp only [dictGet_set]
    split_ifs with h
    · subst h; simp [hg]
    · simp
  | some v =>
    simp only [dictGet_set]
    split_ifs with h
    · subst h; simp [hg]
    · simp

/-- C21: addition of polynomials is addition of functions. -/
theorem C21_add (p q : Polynomial K n) (hp : p.WF) (x : Fin n → K) :
    (p.add q).WF ∧ (p.add q).evaluate x = p.evaluate x + q.evaluate x := by
  have hn : ∀ (items acc : List ((Fin n → ℕ) × K)), (acc.map Prod.fst).Nodup →
      ((items.foldl addStep acc).map Prod.fst).Nodup := by
    intro items
    induction items with
    | nil => exact fun _ h => h
    | cons kc items ih => exact fun acc h => ih _ (addStep_nodup _ _ h)
  have hs : ∀ (items acc : List ((Fin n → ℕ) × K)),
      ((items.foldl addStep acc).map fun kc => kc.2 * ∏ i, x i ^ kc.1 i).sum =
        (acc.map fun kc => kc.2 * ∏ i, x i ^ kc.1 i).sum + (items.map fun kc => kc.2 * ∏ i, x i ^ kc.1 i).sum := by
    intro items
    induction items with
    | nil => simp
    | cons kc items ih =>
      intro acc
      rw [List.foldl_cons, ih, addStep_sum acc kc fun k => ∏ i, x i ^ k i, List.map_cons, List.sum_cons]
      ring
  refine ⟨C21_wf _ _ le_rfl, ?_⟩
  have e : p.add q = Polynomial.init (q.coefficients.foldl addStep p.coefficients) := rfl
  rw [e, init_evaluate _ (hn _ _ hp.1), hs]
  rfl

/-- C21: the coefficients of a sum; a coefficient that cancels is not stored. -/
theorem C21_add_coeff (p q : Polynomial K n) (hp : p.WF) (hq : q.WF) (k : Fin n → ℕ) :
    (p.add q).coeff k = p.coeff k + q.coeff k ∧
      (p.coeff k + q.coeff k = 0 → k ∉ (p.add q).coefficients.map Prod.fst) := by
  have hn : ∀ (items acc : List ((Fin n → ℕ) × K)), (acc.map Prod.fst).Nodup →
      ((items.foldl addStep acc).map Prod.fst).Nodup := by
    intro items
    induction items with
    | nil => exact fun _ h => h
    | cons kc items ih => exact fun acc h => ih _ (addStep_nodup _ _ h)
  have hg : ∀ (items acc : List ((Fin n → ℕ) × K)), (items.map Prod.fst).Nodup →
      (dictGet (items.foldl addStep acc) k).getD 0 = (dictGet acc k).getD 0 + (dictGet items k).getD 0 := by
    intro items
    induction items with
    | nil => simp [dictGet]
    | cons kc items ih =>
      intro acc h
      obtain ⟨h1, h2⟩ := List.nodup_cons.mp h
      rw [List.foldl_cons, ih _ h2, addStep_get]
      by_cases hk : kc.1 = k
      · have : dictGet items k = none := by rw [dictGet_eq_none, ← hk]; exact h1
        simp [dictGet, hk, this]
      · simp [dictGet, hk]
  have e : (p.add q).coefficients = (q.coefficients.foldl addStep p.coefficients).filter fun kc => kc.2 ≠ 0 :=
    init_coefficients _ (hn _ _ hp.1)
  have hc : ∀ l : List ((Fin n → ℕ) × K), (l.map Prod.fst).Nodup →
      (dictGet (l.filter fun kc => kc.2 ≠ 0) k).getD 0 = (dictGet l k).getD 0 := by
    intro l hl
    have hl' : ((l.filter fun kc => kc.2 ≠ 0).map Prod.fst).Nodup :=
      hl.sublist (List.filter_sublist.map _)
    cases h : dictGet l k with
    | none =>
      rw [dictGet_eq_none] at h
      have : dictGet (l.filter fun kc => kc.2 ≠ 0) k = none := by
        rw [dictGet_eq_none]
        exact fun hm => h ((List.filter_sublist.map _).subset hm)
      rw [this]
    | some v =>
      by_cases h0 : v = 0
      · have : dictGet (l.filter fun kc => kc.2 ≠ 0) k = none := by
          rw [dictGet_eq_none]
          intro hm
          obtain ⟨kc, hkc, rfl⟩ := List.mem_map.mp hm
          obtain ⟨hm1, hm2⟩ := List.mem_filter.mp hkc
          have := (dictGet_eq_some hl kc.1 kc.2).mpr hm1
          rw [h] at this
          simp at hm2 this
          exact hm2 (this ▸ h0)
        rw [this]; simp [h0]
      · have : dictGet (l.filter fun kc => kc.2 ≠ 0) k = some v := by
          rw [dictGet_eq_some hl', List.mem_filter]
          exact ⟨(dictGet_eq_some hl k v).mp h, by simpa using h0⟩
        rw [this]
  have h1 : (p.add q).coeff k = p.coeff k + q.coeff k := by
    rw [Polynomial.coeff, e, hc _ (hn _ _ hp.1), hg _ _ hq.1]; rfl
  refine ⟨h1, fun h0 hm => ?_⟩
  have hwf := C21_add p q hp 0
  obtain ⟨kc, hkc, rfl⟩ := List.mem_map.mp hm
  have := (dictGet_eq_some hwf.1.1 kc.1 kc.2).mpr hkc
  rw [← h1, Polynomial.coeff, this] at h0
  exact hwf.1.2 kc hkc h0

theorem localize_coefficients (p : Polynomial K n) (hp : p.WF) (s : Fin n → ℕ) :
    (p.localize s).coefficients = p.coefficients.map fun kc => (kc.1 + s, kc.2) := by
  have hnd : (p.coefficients.map fun kc => kc.1 + s).Nodup := by
    have := (List.nodup_map_iff (add_left_injective s)).mpr hp.1
    simpa [List.map_map, Function.comp_def] using this
  unfold Polynomial.localize
  rw [foldl_dictSet (fun kc : (Fin n → ℕ) × K => kc.1 + s) (fun kc => kc.2) _ _ (by simpa using hnd)]
  rw [List.nil_append, init_coefficients]
  · rw [List.filter_eq_self]
    intro kc hkc
    obtain ⟨kc', h', rfl⟩ := List.mem_map.mp hkc
    simpa using hp.2 kc' h'
  · simpa [List.map_map, Function.comp_def] using hnd

/-- C21: localizing about a monomial multiplies by that monomial. -/
theorem C21_localize (p : Polynomial K n) (hp : p.WF) (s : Fin n → ℕ) (x : Fin n → K) :
    (p.localize s).WF ∧ (p.localize s).evaluate x = (∏ i, x i ^ s i) * p.evaluate x := by
  refine ⟨C21_wf _ _ le_rfl, ?_⟩
  unfold Polynomial.evaluate
  rw [localize_coefficients p hp s, List.map_map, ← List.sum_map_mul_left]
  congr 1
  refine List.map_congr_left fun kc _ => ?_
  simp only [Function.comp, Pi.add_apply, pow_add, Finset.prod_mul_distrib]
  ring

theorem affine_items (a : Fin n → K) (b : K) :
    (List.finRange n).foldl (fun acc i => dictSet acc (Pi.single i 1) (-a i)) [((0 : Fin n → ℕ), b)] =
      (0, b) :: (List.finRange n).map fun i => (Pi.single i 1, -a i) := by
  rw [foldl_dictSet (fun i : Fin n => (Pi.single i 1 : Fin n → ℕ)) (fun i => -a i)]
  · rfl
  · simp only [List.map_cons, List.map_nil, List.cons_append, List.nil_append, List.nodup_cons]
    refine ⟨?_, ?_⟩
    · simp only [List.mem_map, List.mem_finRange, true_and, not_exists]
      intro i h
      have := congrFun h i
      simp at this
    · refine (List.nodup_map_iff ?_).mpr (List.nodup_finRange n)
      intro i j h
      by_contra hij
      have := congrFun h i
      simp [hij] at this

theorem affine_nodup (a : Fin n → K) (b : K) :
    ((((0, b) :: (List.finRange n).map fun i => (Pi.single i 1, -a i)) : List ((Fin n → ℕ) × K)).map
      Prod.fst).Nodup := by
  simp only [List.map_cons, List.map_map, Function.comp_def, List.nodup_cons]
  refine ⟨?_, ?_⟩
  · simp only [List.mem_map, List.mem_finRange, true_and, not_exists]
    intro i h
    have := congrFun h i
    simp at this
  · refine (List.nodup_map_iff ?_).mpr (List.nodup_finRange n)
    intro i j h
    by_contra hij
    have := congrFun h i
    simp [hij] at this

/-- C21: `affine(a, b)` evaluates to `b - a ⬝ᵥ x`. -/
theorem C21_affine (a : Fin n → K) (b : K) (x : Fin n → K) :
    (Polynomial.affine a b).WF ∧ (Polynomial.affine a b).evaluate x = b - a ⬝ᵥ x := by
  refine ⟨C21_wf _ _ le_rfl, ?_⟩
  unfold Polynomial.affine
  rw [affine_items, init_evaluate _ (affine_nodup a b)]
  simp only [List.map_cons, List.sum_cons, List.map_map, Function.comp_def, Pi.zero_apply, pow_zero,
    Finset.prod_const_one, mul_one]
  have : ∀ i, ∏ j, x j ^ (Pi.single i 1 : Fin n → ℕ) j = x i := by
    intro i
    rw [Finset.prod_eq_single i]
    · simp
    · intro j _ hj; simp [hj]
    · simp
  simp only [this]
  rw [← List.ofFn_eq_map, List.sum_ofFn, dotProduct, sub_eq_add_neg, ← Finset.sum_neg_distrib]
  simp

/-- C21: `degree` is the largest total degree of a stored monomial; the zero polynomial has none (the
source raises `ValueError`). -/
theorem C21_degree (p : Polynomial K n) :
    (p.coefficients = [] → p.degree = .error .value) ∧
    (p.coefficients ≠ [] → ∃ D, p.degree = .ok D ∧ (∀ kc ∈ p.coefficients, ∑ i, kc.1 i ≤ D) ∧
      ∃ kc ∈ p.coefficients, ∑ i, kc.1 i = D) := by
  refine ⟨fun h => by simp [Polynomial.degree, h], fun h => ⟨_, by simp [Polynomial.degree, h]; rfl, ?_⟩⟩
  have key : ∀ (l : List ((Fin n → ℕ) × K)) (a : ℕ),
      a ≤ l.foldl (fun acc kc => max acc (∑ i, kc.1 i)) a ∧
      (∀ kc ∈ l, ∑ i, kc.1 i ≤ l.foldl (fun acc kc => max acc (∑ i, kc.1 i)) a) ∧
      (l.foldl (fun acc kc => max acc (∑ i, kc.1 i)) a = a ∨
        ∃ kc ∈ l, ∑ i, kc.1 i = l.foldl (fun acc kc => max acc (∑ i, kc.1 i)) a) := by
    intro l
    induction l with
    | nil => intro a; simp
    | cons kc l ih =>
      intro a
      rw [List.foldl_cons]
      obtain ⟨h1, h2, h3⟩ := ih (max a (∑ i, kc.1 i))
      refine ⟨(le_max_left _ _).trans h1, ?_, ?_⟩
      · intro x hx
        rcases List.mem_cons.mp hx with rfl | hx
        · exact (le_max_right _ _).trans h1
        · exact h2 x hx
      · rcases h3 with h3 | ⟨x, hx, h3⟩
        · rcases max_choice a (∑ i, kc.1 i) with hm | hm
          · left; rw [h3, hm]
          · right; exact ⟨kc, by simp, by rw [h3, hm]⟩
        · right; exact ⟨x, by simp [hx], h3⟩
  obtain ⟨h1, h2, h3⟩ := key p.coefficients 0
  refine ⟨h2, ?_⟩
  rcases h3 with h3 | h3
  · obtain ⟨kc, l, hl⟩ := List.exists_cons_of_ne_nil h
    refine ⟨kc, by rw [hl]; simp, ?_⟩
    have := h2 kc (by rw [hl]; simp)
    omega
  · exact h3

/-- C21: `zeros()` is the zero function. -/
theorem C21_zeros (x : Fin n → K) : (Polynomial.zeros : Polynomial K n).evaluate x = 0 := by
  simp [Polynomial.zeros, Polynomial.init, Polynomial.evaluate]

/-- C21: `ones(n, d)` with `d ≥ 1` has coefficient one exactly for the monomials of degree at most `d`;
for `d = 0` it fails. -/
theorem C21_ones (n d : ℕ) :
    (1 ≤ d → ∃ p : Polynomial K n, Polynomial.ones n d = .ok p ∧ p.WF ∧
      ∀ k, p.coeff k = if ∑ i, k i ≤ d then 1 else 0) ∧
    (Polynomial.ones n 0 : Py (Polynomial K n)) = .error .type := by
  constructor
  · intro hd
    obtain ⟨L, h1, h2, h3⟩ := C20_basis n d hd
    have hm : ∀ (f : Option (Fin n → ℕ) → Py (Fin n → ℕ)) (_ : ∀ x, f (some x) = .ok x)
        (L : List (Fin n → ℕ)), (L.map some).mapM f = .ok L := by
      intro f hf L
      induction L with
      | nil => rfl
      | cons a L ih => rw [List.map_cons, List.mapM_cons, ih, hf]; rfl
    refine ⟨_, by rw [Polynomial.ones, h1, hm _ fun _ => rfl]; rfl, C21_wf _ _ le_rfl, fun k => ?_⟩
    have hnd : ((L.map fun x => (x, (1 : K))).map Prod.fst).Nodup := by
      simpa [List.map_map, Function.comp_def] using h2
    have hf : ((L.map fun x => (x, (1 : K))).filter fun kc => kc.2 ≠ 0) = L.map fun x => (x, (1 : K)) := by
      rw [List.filter_eq_self]
      intro kc hkc
      obtain ⟨x, -, rfl⟩ := List.mem_map.mp hkc
      simp
    rw [Polynomial.coeff, foldl_dictSet (fun x : Fin n → ℕ => x) (fun _ => (1 : K)) L [] (by simpa using h2),
      List.nil_append, init_coefficients _ hnd, hf]
    split_ifs with hk
    · rw [(dictGet_eq_some hnd k 1).mpr (List.mem_map.mpr ⟨k, (h3 k).mpr hk, rfl⟩)]; rfl
    · rw [(dictGet_eq_none _ k).mpr ?_]; rfl
      simpa [List.map_map, Function.comp_def, h3] using hk
  · simp only [Polynomial.ones, C20_degree_zero]
    rfl

example : ∃ p q : Polynomial ℚ 2, p.WF ∧ q.WF ∧ (p.add q).coefficients = [(![1, 0], 1)] := by
  refine ⟨Polynomial.init [(![1, 0], 1), (![0, 1], 2)], Polynomial.init [(![0, 1], -2)],
    C21_wf _ _ le_rfl, C21_wf _ _ le_rfl, ?_⟩
  decide +kernel

end Field

end Rigeo
