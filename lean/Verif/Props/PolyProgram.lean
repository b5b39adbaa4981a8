import Verif.Spec.PolyProgram
import Verif.Props.Moment
import Verif.Lemmas.Pseudo
import Mathlib.Algebra.MvPolynomial.Funext
import Mathlib.Algebra.MvPolynomial.Degrees

/-!
# C118: programs that build polynomials
-/

namespace Rigeo

open MvPolynomial

variable {K : Type} [Field K] [LinearOrder K] [IsStrictOrderedRing K] {n : ℕ}

/-- The polynomial of a dictionary. -/
noncomputable def dictPoly (l : List ((Fin n → ℕ) × K)) : MvPolynomial (Fin n) K := (l.map fun kc => Spec.term kc.1 kc.2).sum

omit [LinearOrder K] [IsStrictOrderedRing K] in
theorem eval_term (x : Fin n → K) (k : Fin n → ℕ) (c : K) : eval x (Spec.term k c) = c * ∏ i, x i ^ k i := by
  rw [Spec.term, eval_monomial, Finsupp.prod_fintype _ _ (by simp)]
  rfl

omit [LinearOrder K] [IsStrictOrderedRing K] in
theorem eval_dictPoly (p : Polynomial K n) (x : Fin n → K) : eval x (dictPoly p.coefficients) = p.evaluate x := by
  rw [dictPoly, map_list_sum, List.map_map, Polynomial.evaluate]
  congr 2
  funext kc
  exact eval_term x kc.1 kc.2

omit [LinearOrder K] [IsStrictOrderedRing K] in
theorem coeff_term (k k' : Fin n → ℕ) (c : K) :
    coeff (Finsupp.equivFunOnFinite.symm k') (Spec.term k c) = if k = k' then c else 0 := by
  rw [Spec.term, coeff_monomial]
  simp only [EmbeddingLike.apply_eq_iff_eq]

omit [LinearOrder K] [IsStrictOrderedRing K] in
theorem coeff_dictPoly (l : List ((Fin n → ℕ) × K)) (hl : (l.map Prod.fst).Nodup) (k : Fin n → ℕ) :
    coeff (Finsupp.equivFunOnFinite.symm k) (dictPoly l) = (dictGet l k).getD 0 := by
  induction l with
  | nil => simp [dictPoly, dictGet]
  | cons kc l ih =>
    obtain ⟨h1, h2⟩ := List.nodup_cons.mp hl
    have e : dictPoly (kc :: l) = Spec.term kc.1 kc.2 + dictPoly l := by simp [dictPoly]
    rw [e, coeff_add, coeff_term, ih h2]
    by_cases hk : kc.1 = k
    · have : dictGet l k = none := by rw [dictGet_eq_none, ← hk]; exact h1
      simp [dictGet, hk, this]
    · simp [dictGet, hk]

theorem init_nodup_evaluate (items : List ((Fin n → ℕ) × K)) (h : (items.map Prod.fst).Nodup) (x : Fin n → K) :
    (Polynomial.init items).evaluate x = eval x (dictPoly items) := by
  rw [init_evaluate items h, dictPoly, map_list_sum, List.map_map]
  congr 2
  funext kc
  exact (eval_term x kc.1 kc.2).symm

/-- C118: A program with proper arguments has a value: a dictionary with distinct keys and no zeros, whose entries are the coefficients of
the polynomial that the program describes. -/
theorem C118_run (prog : PolyProgram K n) (h : Spec.PolyArgsOk prog) :
    ∃ p, prog.run = .ok p ∧ (p.coefficients.map Prod.fst).Nodup ∧ (∀ kc ∈ p.coefficients, kc.2 ≠ 0) ∧
      ∀ k, (dictGet p.coefficients k).getD 0 = coeff (Finsupp.equivFunOnFinite.symm k) (Spec.programPoly prog) := by
  suffices H : ∃ p, prog.run = .ok p ∧ p.WF ∧ dictPoly p.coefficients = Spec.programPoly prog by
    obtain ⟨p, h1, h2, h3⟩ := H
    exact ⟨p, h1, h2.1, h2.2, fun k => by rw [← h3, coeff_dictPoly _ h2.1]⟩
  induction prog with
  | terms items =>
    refine ⟨_, rfl, C21_wf _ _ le_rfl, MvPolynomial.funext fun x => ?_⟩
    rw [eval_dictPoly, init_nodup_evaluate items h]
    rfl
  | zeros =>
    refine ⟨_, rfl, C21_wf _ _ le_rfl, MvPolynomial.funext fun x => ?_⟩
    rw [eval_dictPoly, C21_zeros, Spec.programPoly, map_zero]
  | ones d =>
    obtain ⟨p, h1, h2, h3⟩ := (C21_ones (K := K) n d).1 h
    refine ⟨p, h1, h2, ?_⟩
    ext k
    obtain ⟨k, rfl⟩ := Finsupp.equivFunOnFinite.symm.surjective k
    rw [coeff_dictPoly _ h2.1, Spec.programPoly, coeff_sum]
    simp only [coeff_term]
    rw [Finset.sum_ite_eq']
    refine (h3 k).trans ?_
    congr 1
    rw [Spec.multiIndices, Finset.mem_filter, Fintype.mem_piFinset, eq_iff_iff]
    refine ⟨fun hk => ⟨fun i => ?_, hk⟩, fun hk => hk.2⟩
    exact Finset.mem_range_succ_iff.mpr ((Finset.single_le_sum (f := k) (fun _ _ => Nat.zero_le _) (Finset.mem_univ i)).trans hk)
  | affine a b =>
    refine ⟨_, rfl, (C21_affine a b 0).1, MvPolynomial.funext fun x => ?_⟩
    rw [eval_dictPoly, (C21_affine a b x).2, Spec.programPoly]
    simp [dotProduct]
  | add p q ihp ihq =>
    obtain ⟨x, ex, wx, px⟩ := ihp h.1
    obtain ⟨y, ey, wy, py⟩ := ihq h.2
    refine ⟨x.add y, ?_, (C21_add x y wx 0).1, MvPolynomial.funext fun z => ?_⟩
    · unfold PolyProgram.run; rw [ex, ey]; rfl
    · rw [eval_dictPoly, (C21_add x y wx z).2, Spec.programPoly, map_add, ← px, ← py, eval_dictPoly, eval_dictPoly]
  | localize p idx ih =>
    obtain ⟨x, ex, wx, px⟩ := ih h
    refine ⟨x.localize idx, ?_, (C21_localize x wx idx 0).1, MvPolynomial.funext fun z => ?_⟩
    · unfold PolyProgram.run; rw [ex]; rfl
    · rw [eval_dictPoly, (C21_localize x wx idx z).2, Spec.programPoly, map_mul, ← px, eval_dictPoly, eval_term]
      ring

/-- C118: The only way to fail is `ones(n, 0)`. -/
theorem C118_fails (prog : PolyProgram K n) (hd : Spec.DictsOk prog) (h : ¬ Spec.PolyArgsOk prog) : prog.run = .error .type := by
  induction prog with
  | terms items => exact absurd hd h
  | zeros => exact absurd trivial h
  | ones d =>
    obtain rfl : d = 0 := by
      have : ¬ 1 ≤ d := h
      omega
    exact (C21_ones n 0).2
  | affine a b => exact absurd trivial h
  | add p q ihp ihq =>
    unfold PolyProgram.run
    by_cases hp : Spec.PolyArgsOk p
    · obtain ⟨x, ex, -⟩ := C118_run p hp
      rw [ex, ihq hd.2 fun hq => h ⟨hp, hq⟩]
      rfl
    · rw [ihp hd.1 hp]
      rfl
  | localize p idx ih =>
    unfold PolyProgram.run
    rw [ih hd h]
    rfl

/-- C118: The value of a program evaluates like the polynomial, its keys are the exponents that occur, and `degree` is the total degree,
with a `ValueError` for the zero polynomial. -/
theorem C118_queries (prog : PolyProgram K n) (h : Spec.PolyArgsOk prog) {p : Polynomial K n} (hp : prog.run = .ok p) :
    (∀ x, p.evaluate x = eval x (Spec.programPoly prog)) ∧
      (∀ k, k ∈ p.coefficients.map Prod.fst ↔ Finsupp.equivFunOnFinite.symm k ∈ (Spec.programPoly prog).support) ∧
      (Spec.programPoly prog = 0 → p.degree = .error .value) ∧
      (Spec.programPoly prog ≠ 0 → p.degree = .ok (Spec.programPoly prog).totalDegree) := by
  obtain ⟨p', e, h1, h2, h3⟩ := C118_run prog h
  rw [hp] at e
  obtain rfl := Except.ok.inj e
  have hpoly : dictPoly p.coefficients = Spec.programPoly prog := by
    ext k
    obtain ⟨k, rfl⟩ := Finsupp.equivFunOnFinite.symm.surjective k
    rw [coeff_dictPoly _ h1, h3]
  have hkeys : ∀ k, k ∈ p.coefficients.map Prod.fst ↔ Finsupp.equivFunOnFinite.symm k ∈ (Spec.programPoly prog).support := by
    intro k
    rw [mem_support_iff, ← h3]
    constructor
    · intro hk
      obtain ⟨kc, hkc, rfl⟩ := List.mem_map.mp hk
      rw [(dictGet_eq_some h1 kc.1 kc.2).mpr hkc]
      exact h2 kc hkc
    · intro hk
      by_contra hne
      rw [(dictGet_eq_none _ _).mpr hne] at hk
      exact hk rfl
  refine ⟨fun x => by rw [← hpoly, eval_dictPoly], hkeys, fun h0 => ?_, fun h0 => ?_⟩
  · refine (C21_degree p).1 ?_
    by_contra hne
    obtain ⟨kc, hkc⟩ := List.exists_mem_of_ne_nil _ hne
    have := (hkeys kc.1).mp (List.mem_map_of_mem hkc)
    rw [h0, support_zero] at this
    simp at this
  · have hne : p.coefficients ≠ [] := by
      intro hnil
      rw [← hpoly, hnil] at h0
      exact h0 rfl
    obtain ⟨D, hD, hle, kc, hkc, hsum⟩ := (C21_degree p).2 hne
    rw [hD]
    congr 1
    have hs : ∀ m : Fin n →₀ ℕ, (m.sum fun _ e => e) = ∑ i, m i := fun m => Finsupp.sum_fintype _ _ (by simp)
    apply le_antisymm
    · rw [← hsum]
      have := le_totalDegree ((hkeys kc.1).mp (List.mem_map_of_mem hkc))
      rw [hs] at this
      exact this
    · refine Finset.sup_le fun m hm => ?_
      rw [hs]
      obtain ⟨kc, hkc, hk⟩ := List.mem_map.mp ((hkeys m).mpr (by simpa using hm))
      have := hle kc hkc
      rw [hk] at this
      exact this

/-- C118: Two programs describe the same polynomial exactly if their values have the same items, up to order. -/
theorem C118_same (prog prog' : PolyProgram K n) (h : Spec.PolyArgsOk prog) (h' : Spec.PolyArgsOk prog') {p p' : Polynomial K n}
    (hp : prog.run = .ok p) (hp' : prog'.run = .ok p') :
    p.coefficients.Perm p'.coefficients ↔ Spec.programPoly prog = Spec.programPoly prog' := by
  obtain ⟨_, e, h1, h2, h3⟩ := C118_run prog h
  rw [hp] at e
  obtain rfl := Except.ok.inj e
  obtain ⟨_, e', h1', h2', h3'⟩ := C118_run prog' h'
  rw [hp'] at e'
  obtain rfl := Except.ok.inj e'
  have key : ∀ (l : List ((Fin n → ℕ) × K)), (l.map Prod.fst).Nodup → (∀ kc ∈ l, kc.2 ≠ 0) → ∀ k c,
      (k, c) ∈ l ↔ c ≠ 0 ∧ (dictGet l k).getD 0 = c := by
    intro l hn hz k c
    constructor
    · intro hm
      exact ⟨hz _ hm, by rw [(dictGet_eq_some hn k c).mpr hm]; rfl⟩
    · rintro ⟨h0, hg⟩
      cases hd : dictGet l k with
      | none => rw [hd] at hg; exact absurd hg.symm h0
      | some v =>
        rw [hd] at hg
        obtain rfl : v = c := hg
        exact (dictGet_eq_some hn k v).mp hd
  constructor
  · intro hperm
    ext k
    obtain ⟨k, rfl⟩ := Finsupp.equivFunOnFinite.symm.surjective k
    rw [← h3, ← h3']
    by_cases h0 : (dictGet p.coefficients k).getD 0 = 0
    · by_contra hne
      have hm := (key _ h1' h2' k ((dictGet p'.coefficients k).getD 0)).mpr ⟨fun h => hne (h0.trans h.symm), rfl⟩
      have := ((key _ h1 h2 k _).mp (hperm.mem_iff.mpr hm)).2
      exact hne this
    · have hm := (key _ h1 h2 k ((dictGet p.coefficients k).getD 0)).mpr ⟨h0, rfl⟩
      exact ((key _ h1' h2' k _).mp (hperm.mem_iff.mp hm)).2.symm
  · intro heq
    refine (List.perm_ext_iff_of_nodup (List.Nodup.of_map _ h1) (List.Nodup.of_map _ h1')).mpr fun ⟨k, c⟩ => ?_
    rw [key _ h1 h2, key _ h1' h2', h3, h3', heq]

/-- C118: `substitute` on the value of a program replaces every monomial by its value, if there is one for each monomial that occurs;
otherwise it raises a `KeyError`. -/
theorem C118_substitute (prog : PolyProgram K n) (h : Spec.PolyArgsOk prog) {p : Polynomial K n} (hp : prog.run = .ok p)
    (vals : List ((Fin n → ℕ) × K)) :
    (∀ y : (Fin n → ℕ) → K, (∀ m ∈ (Spec.programPoly prog).support, dictGet vals m = some (y m)) →
      p.substitute vals = .ok (∑ m ∈ (Spec.programPoly prog).support, coeff m (Spec.programPoly prog) * y m)) ∧
    ((∃ m ∈ (Spec.programPoly prog).support, dictGet vals m = none) → p.substitute vals = .error .key) := by
  have hkeys := (C118_queries prog h hp).2.1
  obtain ⟨p', e, h1, h2, h3⟩ := C118_run prog h
  rw [hp] at e
  obtain rfl := Except.ok.inj e
  have hpoly : dictPoly p.coefficients = Spec.programPoly prog := by
    ext k
    obtain ⟨k, rfl⟩ := Finsupp.equivFunOnFinite.symm.surjective k
    rw [coeff_dictPoly _ h1, h3]
  constructor
  · intro y hy
    have hpair : ∀ q : MvPolynomial (Fin n) K, pairing y q = ∑ m ∈ q.support, coeff m q * y m := by
      intro q
      conv_lhs => rw [← support_sum_monomial_coeff q]
      rw [map_sum]
      exact Finset.sum_congr rfl fun m _ => pairing_monomial y m _
    rw [← hpair, ← hpoly]
    have hall : ∀ kc ∈ p.coefficients, dictGet vals kc.1 = some (y kc.1) := fun kc hkc =>
      hy _ ((hkeys kc.1).mp (List.mem_map_of_mem hkc))
    have hmap : ∀ l : List ((Fin n → ℕ) × K), (∀ kc ∈ l, dictGet vals kc.1 = some (y kc.1)) →
        (l.mapM fun kc => match dictGet vals kc.1 with
          | some v => (.ok (kc.2 * v) : Py K)
          | none => .error .key) = .ok (l.map fun kc => kc.2 * y kc.1) := by
      intro l hl
      induction l with
      | nil => rfl
      | cons kc l ih =>
        rw [List.mapM_cons, hl kc (by simp), ih fun kc h => hl kc (by simp [h])]
        rfl
    have hsum : ∀ l : List ((Fin n → ℕ) × K), pairing y (dictPoly l) = (l.map fun kc => kc.2 * y kc.1).sum := by
      intro l
      rw [dictPoly, map_list_sum, List.map_map]
      congr 2
      funext kc
      exact pairing_monomial y _ _
    rw [hsum]
    exact congrArg (fun r : Py (List K) => r >>= fun terms => pure terms.sum) (hmap _ hall)
  · rintro ⟨m, hm, hnone⟩
    obtain ⟨kc, hkc, hk⟩ := List.mem_map.mp ((hkeys m).mpr (by simpa using hm))
    have hmap : ∀ l : List ((Fin n → ℕ) × K), kc ∈ l →
        (l.mapM fun kc => match dictGet vals kc.1 with
          | some v => (.ok (kc.2 * v) : Py K)
          | none => .error .key) = .error .key := by
      intro l hl
      induction l with
      | nil => simp at hl
      | cons a l ih =>
        rw [List.mapM_cons]
        rcases List.mem_cons.mp hl with rfl | hl
        · rw [hk, hnone]
          rfl
        · cases dictGet vals a.1 with
          | none => rfl
          | some v =>
            rw [ih hl]
            rfl
    exact congrArg (fun r : Py (List K) => r >>= fun terms => pure terms.sum) (hmap _ hkc)

/-- The arguments of C118 for a sum. -/
example : ∃ prog : PolyProgram ℚ 2, Spec.PolyArgsOk prog ∧ Spec.programPoly prog ≠ 0 := by
  refine ⟨.localize (.add (.ones 1) (.add (.affine ![1, 2] 3) (.terms [(![1, 1], 5)]))) ![1, 0],
    ⟨le_rfl, trivial, List.nodup_singleton _⟩, fun h => ?_⟩
  have h1 : eval ![1, 1] (Spec.programPoly (.localize (.add (.ones 1) (.add (.affine ![1, 2] 3) (.terms [(![1, 1], 5)]))) ![1, 0]) :
      MvPolynomial (Fin 2) ℚ) = 0 := by rw [h, map_zero]
  have h2 : (Spec.multiIndices 2 1).card = 3 := by decide
  simp only [Spec.programPoly, map_mul, map_add, map_sub, map_sum, eval_term] at h1
  norm_num [Fin.prod_univ_two, Fin.sum_univ_two, eval_term, h2] at h1

/-- A term that cancels is not stored. -/
example : ∃ p : Polynomial ℚ 2, (PolyProgram.add (.affine ![1, 2] 3) (.terms [(![1, 0], 1), (![1, 1], 5)])).run = .ok p ∧
    p.coefficients.length = 3 := ⟨_, rfl, by decide +kernel⟩

/-- The arguments of `C118_fails`. -/
example : ∃ prog : PolyProgram ℚ 2, Spec.DictsOk prog ∧ ¬ Spec.PolyArgsOk prog :=
  ⟨.add (.affine ![1, 2] 3) (.ones 0), ⟨trivial, trivial⟩, fun h => absurd h.2 (by simp [Spec.PolyArgsOk])⟩

end Rigeo
