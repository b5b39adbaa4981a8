import Verif.Model.MomentIndex
import Verif.Props.Moment
import Verif.Model.Realize
import Mathlib.Algebra.BigOperators.Fin

/-!
# C100: moment indices as tuples of any length

The operations on tuples agree with the exponent vectors of `Model/Moment.lean` when all lengths are equal; what happens when they
are not; and when a printed index can be read back.
-/

namespace Rigeo

/-- C100: `idx + other` for two indices is the tuple of the sums if the lengths agree and raises `AssertionError` otherwise;
`idx + 0` is `idx`, and any other integer raises `AttributeError`. -/
theorem C100_index_add (v : DynIndex) (other : IndexOperand) :
    v.add other = match other with
      | .int k => if k = 0 then .ok v else .error .attribute
      | .index w => if h : v.length = w.length then .ok (List.ofFn fun i : Fin v.length => v.get i + w.get (Fin.cast h i))
        else .error .assertion := by
  cases other with
  | int k => rfl
  | index w =>
    simp only [DynIndex.add, pyAssert]
    by_cases h : v.length = w.length
    · simp only [h, beq_self_eq_true, if_true, dif_pos, bind, Except.bind, pure, Except.pure]
      congr 1
      apply List.ext_getElem
      · simp [h]
      · intro k h1 h2
        simp
    · simp [h, Ne.symm h, bind, Except.bind]

theorem zipWith_ofFn {n : ℕ} (u v : Fin n → ℕ) : List.zipWith (· + ·) (List.ofFn u) (List.ofFn v) = List.ofFn (u + v) := by
  apply List.ext_getElem
  · simp
  · intro k h1 h2
    simp

/-- C100: on exponent vectors of `n` variables the sum is the sum of the vectors. -/
theorem C100_index_static {n : ℕ} (u v : Fin n → ℕ) :
    DynIndex.add (List.ofFn u) (.index (List.ofFn v)) = .ok (List.ofFn (u + v)) ∧
      DynIndex.mul (List.ofFn u) (.index (List.ofFn v)) = .ok (List.ofFn (u + v)) := by
  have h : DynIndex.add (List.ofFn u) (.index (List.ofFn v)) = .ok (List.ofFn (u + v)) := by
    simp [DynIndex.add, pyAssert, bind, Except.bind, pure, Except.pure, zipWith_ofFn]
  exact ⟨h, h⟩

/-- Reading an operand that is `0` or an exponent vector. -/
def operandOf {n : ℕ} : Option (Fin n → ℕ) → IndexOperand
  | none => .int 0
  | some v => .index (List.ofFn v)

theorem pySum_static {n : ℕ} (group : List (Fin n → ℕ)) :
    DynIndex.pySum (group.map List.ofFn) = .ok (operandOf (sumIndices group)) := by
  unfold DynIndex.pySum sumIndices
  generalize hacc : (none : Option (Fin n → ℕ)) = acc
  have h0 : IndexOperand.int 0 = operandOf acc := by rw [← hacc]; rfl
  rw [h0]
  clear hacc h0
  induction group generalizing acc with
  | nil => rfl
  | cons g group ih =>
    rw [List.map_cons, List.foldlM_cons, List.foldl_cons]
    have : DynIndex.sumStep (operandOf acc) (List.ofFn g) = .ok (operandOf (some (acc.getD 0 + g))) := by
      cases acc with
      | none => simp [DynIndex.sumStep, operandOf, DynIndex.radd, DynIndex.add, bind, Except.bind, pure, Except.pure]
      | some v => simp [DynIndex.sumStep, operandOf, (C100_index_static v g).1, bind, Except.bind, pure, Except.pure]
    rw [this]
    exact ih _

theorem combos_map {α β : Type} (f : α → β) (l : List α) (k : ℕ) :
    combosWithReplacement (l.map f) k = (combosWithReplacement l k).map (List.map f) := by
  induction l, k using combosWithReplacement.induct with
  | case1 l => simp [combosWithReplacement]
  | case2 k => simp [combosWithReplacement]
  | case3 a l k ih1 ih2 =>
    rw [List.map_cons, combosWithReplacement, combosWithReplacement]
    rw [List.map_cons] at ih1
    rw [ih1, ih2]
    simp [Function.comp_def]

theorem mapM_ok {α β : Type} (f : α → Py β) (g : α → β) : ∀ l : List α, (∀ a ∈ l, f a = .ok (g a)) → l.mapM f = .ok (l.map g)
  | [], _ => rfl
  | a :: l, h => by
    rw [List.mapM_cons, h a (by simp), mapM_ok f g l fun b hb => h b (by simp [hb])]
    rfl

theorem ofFn_zero (n : ℕ) : List.ofFn (0 : Fin n → ℕ) = List.replicate n 0 := by
  rw [← List.ofFn_const]
  rfl

theorem ofFn_single {n : ℕ} (i : Fin n) :
    List.ofFn (Pi.single i 1 : Fin n → ℕ) = (List.range n).map fun j => if j = (i : ℕ) then 1 else 0 := by
  apply List.ext_getElem
  · simp
  · intro k h1 h2
    simp only [List.getElem_ofFn, List.getElem_map, List.getElem_range, Pi.single_apply, Fin.ext_iff]

/-- C100: the basis computed with tuples is the basis of exponent vectors. -/
theorem C100_basis (n d : ℕ) : DynPoly.basis n d = .ok ((Polynomial.basis n d).map operandOf) := by
  have h : (List.replicate n 0 :: (List.range n).map fun i => (List.range n).map fun j => if j = i then 1 else 0) =
      ((0 : Fin n → ℕ) :: (List.finRange n).map fun i => Pi.single i 1).map List.ofFn := by
    rw [List.map_cons, ofFn_zero, List.map_map]
    congr 1
    rw [← List.map_coe_finRange_eq_range, List.map_map]
    apply List.map_congr_left
    intro i _
    simp only [Function.comp_apply, ofFn_single]
    rw [List.map_coe_finRange_eq_range]
  rw [DynPoly.basis, h, combos_map, Polynomial.basis]
  rw [List.mapM_map]
  rw [mapM_ok (DynIndex.pySum ∘ List.map List.ofFn) (fun g : List (Fin n → ℕ) => operandOf (sumIndices g)) _
    fun g _ => pySum_static g]
  simp [Function.comp_def]

section Field
variable {K : Type} [Field K] {n : ℕ}

/-- The items of a dictionary with the keys written as tuples. -/
def dynItems (l : List ((Fin n → ℕ) × K)) : List (DynIndex × K) := l.map fun kc => (List.ofFn kc.1, kc.2)

omit [Field K] in
theorem dynItems_set (l : List ((Fin n → ℕ) × K)) (k : Fin n → ℕ) (c : K) :
    dictSet (dynItems l) (List.ofFn k) c = dynItems (dictSet l k c) := by
  induction l with
  | nil => rfl
  | cons a l ih =>
    simp only [dynItems, List.map_cons, dictSet, List.ofFn_inj] at ih ⊢
    split
    · rfl
    · rw [ih]; rfl

omit [Field K] in
theorem dynItems_get (l : List ((Fin n → ℕ) × K)) (k : Fin n → ℕ) : dictGet (dynItems l) (List.ofFn k) = dictGet l k := by
  induction l with
  | nil => rfl
  | cons a l ih =>
    simp only [dynItems, List.map_cons, dictGet, List.ofFn_inj] at ih ⊢
    rw [ih]

omit [Field K] in
/-- A loop that builds a dictionary with tuples as keys. -/
theorem foldl_dyn {α : Type} (f : List (DynIndex × K) → α → List (DynIndex × K))
    (g : List ((Fin n → ℕ) × K) → α → List ((Fin n → ℕ) × K)) (h : ∀ acc a, f (dynItems acc) a = dynItems (g acc a)) (l : List α)
    (acc : List ((Fin n → ℕ) × K)) : l.foldl f (dynItems acc) = dynItems (l.foldl g acc) := by
  induction l generalizing acc with
  | nil => rfl
  | cons a l ih => rw [List.foldl_cons, List.foldl_cons, h, ih]

/-- C100: `degree` of a polynomial in `n` variables does not depend on how the indices are stored. -/
theorem C100_degree (p : Polynomial K n) : p.toDyn.degree = p.degree := by
  unfold DynPoly.degree Polynomial.degree Polynomial.toDyn
  simp only [List.isEmpty_map, List.foldl_map, List.sum_ofFn]

/-- C100: `evaluate` at a point with `n` coordinates. -/
theorem C100_evaluate (p : Polynomial K n) (x : Fin n → K) : p.toDyn.evaluate x = .ok (p.evaluate x) := by
  unfold DynPoly.evaluate Polynomial.evaluate Polynomial.toDyn
  rw [List.mapM_map]
  rw [mapM_ok _ (fun kc : (Fin n → ℕ) × K => kc.2 * ∏ i, x i ^ kc.1 i)]
  · rfl
  · intro kc _
    simp [DynPoly.term, DynPoly.monomial, bind, Except.bind, pure, Except.pure]

/-- C100: `substitute` with a dictionary of moments of `n` variables. -/
theorem C100_substitute (p : Polynomial K n) (m : List ((Fin n → ℕ) × K)) :
    p.toDyn.substitute (dynItems m) = p.substitute m := by
  unfold DynPoly.substitute Polynomial.substitute Polynomial.toDyn
  rw [List.mapM_map]
  simp only [dynItems_get, Function.comp_def]
  rfl

variable [LinearOrder K]

theorem init_dyn (items : List ((Fin n → ℕ) × K)) (tol : K) : DynPoly.init (dynItems items) tol = (Polynomial.init items tol).toDyn := by
  have h := foldl_dyn (n := n) (fun acc (kc : (Fin n → ℕ) × K) => if isclose kc.2 0 0 tol then acc else dictSet acc (List.ofFn kc.1) kc.2)
    (fun acc kc => if isclose kc.2 0 0 tol then acc else dictSet acc kc.1 kc.2)
    (fun acc kc => by
      split
      · rfl
      · exact dynItems_set _ _ _) items []
  unfold DynPoly.init Polynomial.init Polynomial.toDyn
  congr 1
  rw [dynItems, List.foldl_map]
  exact h

/-- C100: `Polynomial(coefficients, tol)` with keys of the same length `n`. -/
theorem C100_init (items : List ((Fin n → ℕ) × K)) (tol : K) :
    DynPoly.init (items.map fun kc => (List.ofFn kc.1, kc.2)) tol = (Polynomial.init items tol).toDyn := init_dyn items tol

/-- C100: `Polynomial.affine(a, b, tol)`. -/
theorem C100_affine (a : Fin n → K) (b tol : K) : DynPoly.affine a b tol = (Polynomial.affine a b tol).toDyn := by
  unfold DynPoly.affine Polynomial.affine
  rw [← init_dyn, ← ofFn_zero]
  congr 1
  exact foldl_dyn _ _ (fun acc i => by rw [← ofFn_single, dynItems_set]) _ [(0, b)]

/-- C100: the sum of two polynomials in `n` variables. -/
theorem C100_add (p q : Polynomial K n) : p.toDyn.add q.toDyn = (p.add q).toDyn := by
  unfold DynPoly.add Polynomial.add
  rw [← init_dyn]
  congr 1
  simp only [Polynomial.toDyn, List.foldl_map]
  refine foldl_dyn _ _ (fun acc kc => ?_) q.coefficients p.coefficients
  rw [dynItems_get]
  cases dictGet acc kc.1 <;> exact dynItems_set _ _ _

/-- C100: `localize` of a polynomial in `n` variables about an index with `n` entries. -/
theorem C100_localize (p : Polynomial K n) (s : Fin n → ℕ) : p.toDyn.localize (List.ofFn s) = .ok (p.localize s).toDyn := by
  have key : ∀ (l acc : List ((Fin n → ℕ) × K)), (l.map fun kc => (List.ofFn kc.1, kc.2)).foldlM
      (DynPoly.localizeStep (List.ofFn s)) (dynItems acc) =
      (.ok (dynItems (l.foldl (fun acc kc => dictSet acc (kc.1 + s) kc.2) acc)) : Py (List (DynIndex × K))) := by
    intro l
    induction l with
    | nil => intro acc; rfl
    | cons a l ih =>
      intro acc
      have hs : DynPoly.localizeStep (List.ofFn s) (dynItems acc) (List.ofFn a.1, a.2) = .ok (dynItems (dictSet acc (a.1 + s) a.2)) := by
        simp only [DynPoly.localizeStep, (C100_index_static a.1 s).1, bind, Except.bind, pure, Except.pure, dynItems_set]
      rw [List.map_cons, List.foldlM_cons, List.foldl_cons, hs]
      exact ih _
  have h := key p.coefficients []
  unfold DynPoly.localize Polynomial.localize
  rw [← init_dyn]
  change ((p.coefficients.map fun kc => (List.ofFn kc.1, kc.2)).foldlM _ (dynItems ([] : List ((Fin n → ℕ) × K))) >>= _) = _
  rw [h]
  rfl

/-! ### Indices of different lengths -/

theorem localize_mixed_aux (idx : DynIndex) : ∀ (l acc : List (DynIndex × K)), (∃ kc ∈ l, kc.1.length ≠ idx.length) →
    l.foldlM (DynPoly.localizeStep idx) acc = (.error .assertion : Py (List (DynIndex × K)))
  | [], _, h => by simp at h
  | a :: l, acc, h => by
    rw [List.foldlM_cons]
    by_cases ha : a.1.length = idx.length
    · have hl : ∃ kc ∈ l, kc.1.length ≠ idx.length := by
        obtain ⟨kc, hkc, hne⟩ := h
        rcases List.mem_cons.mp hkc with rfl | h'
        · exact absurd ha hne
        · exact ⟨kc, h', hne⟩
      have hs : DynPoly.localizeStep idx acc a = .ok (dictSet acc (List.ofFn fun i : Fin a.1.length => List.get a.1 i +
          List.get idx (Fin.cast ha i)) a.2) := by
        simp only [DynPoly.localizeStep, C100_index_add]
        rw [dif_pos ha]
        rfl
      rw [hs]
      exact localize_mixed_aux idx l _ hl
    · have hs : DynPoly.localizeStep idx acc a = .error .assertion := by
        simp only [DynPoly.localizeStep, C100_index_add]
        rw [dif_neg ha]
        rfl
      rw [hs]
      rfl

/-- C100: `localize` raises `AssertionError` as soon as one index of the polynomial has another length than the given one. -/
theorem C100_localize_mixed (p : DynPoly K) (idx : DynIndex) (h : ∃ kc ∈ p.coefficients, kc.1.length ≠ idx.length) :
    p.localize idx = .error .assertion := by
  unfold DynPoly.localize
  rw [localize_mixed_aux idx _ _ h]
  rfl

omit [LinearOrder K] in
/-- C100: `evaluate` raises `ValueError` exactly when the length of some index is neither the number of coordinates nor 1, and there
is more than one coordinate (or none). -/
theorem C100_evaluate_mixed (p : DynPoly K) (x : Fin n → K) :
    (p.evaluate x = .error .value ↔ ∃ kc ∈ p.coefficients, kc.1.length ≠ n ∧ kc.1.length ≠ 1 ∧ n ≠ 1) ∧
      (p.evaluate x ≠ .error .value → ∃ y, p.evaluate x = .ok y) := by
  have hm : ∀ v : DynIndex, (v.length ≠ n ∧ v.length ≠ 1 ∧ n ≠ 1 → DynPoly.monomial x v = .error .value) ∧
      (¬ (v.length ≠ n ∧ v.length ≠ 1 ∧ n ≠ 1) → ∃ y, DynPoly.monomial x v = .ok y) := by
    intro v
    unfold DynPoly.monomial
    refine ⟨fun ⟨h1, h2, h3⟩ => by rw [dif_neg (Ne.symm h1), if_neg h2, dif_neg h3], fun h => ?_⟩
    split
    · exact ⟨_, rfl⟩
    · split
      · exact ⟨_, rfl⟩
      · split
        · exact ⟨_, rfl⟩
        · rename_i h1 h2 h3
          exact absurd ⟨Ne.symm h1, h2, h3⟩ h
  have hl : ∀ l : List (DynIndex × K),
      ((∃ kc ∈ l, kc.1.length ≠ n ∧ kc.1.length ≠ 1 ∧ n ≠ 1) → l.mapM (DynPoly.term x) = .error .value) ∧
      ((¬ ∃ kc ∈ l, kc.1.length ≠ n ∧ kc.1.length ≠ 1 ∧ n ≠ 1) → ∃ ts, l.mapM (DynPoly.term x) = .ok ts) := by
    intro l
    induction l with
    | nil => exact ⟨fun h => by simp at h, fun _ => ⟨[], rfl⟩⟩
    | cons a l ih =>
      rw [List.mapM_cons]
      by_cases ha : a.1.length ≠ n ∧ a.1.length ≠ 1 ∧ n ≠ 1
      · refine ⟨fun _ => by rw [DynPoly.term, (hm a.1).1 ha]; rfl, fun h => absurd ⟨a, by simp, ha⟩ h⟩
      · obtain ⟨y, hy⟩ := (hm a.1).2 ha
        have hy' : DynPoly.term x a = .ok (a.2 * y) := by rw [DynPoly.term, hy]; rfl
        rw [hy']
        refine ⟨fun h => ?_, fun h => ?_⟩
        · have hl : ∃ kc ∈ l, kc.1.length ≠ n ∧ kc.1.length ≠ 1 ∧ n ≠ 1 := by
            obtain ⟨kc, hkc, hne⟩ := h
            rcases List.mem_cons.mp hkc with rfl | h'
            · exact absurd hne ha
            · exact ⟨kc, h', hne⟩
          rw [ih.1 hl]
          rfl
        · obtain ⟨ts, hts⟩ := ih.2 fun ⟨kc, hkc, hne⟩ => h ⟨kc, by simp [hkc], hne⟩
          exact ⟨a.2 * y :: ts, by rw [hts]; rfl⟩
  unfold DynPoly.evaluate
  by_cases h : ∃ kc ∈ p.coefficients, kc.1.length ≠ n ∧ kc.1.length ≠ 1 ∧ n ≠ 1
  · rw [(hl _).1 h]
    exact ⟨⟨fun _ => h, fun _ => rfl⟩, fun h' => absurd rfl h'⟩
  · obtain ⟨ts, hts⟩ := (hl _).2 h
    rw [hts]
    refine ⟨⟨fun h' => ?_, fun h' => absurd h' h⟩, fun _ => ⟨_, rfl⟩⟩
    simp [bind, Except.bind, pure, Except.pure] at h'

omit [LinearOrder K] in
/-- C100: in particular an index with a single entry is accepted for points of any dimension: `Polynomial({"2": 1})` evaluates
to the product of the squares of all coordinates. -/
theorem C100_evaluate_broadcast (k : ℕ) (c : K) (x : Fin n → K) :
    (⟨[([k], c)]⟩ : DynPoly K).evaluate x = .ok (c * ∏ i, x i ^ k) := by
  have h : DynPoly.monomial x [k] = .ok (∏ i, x i ^ k) := by
    unfold DynPoly.monomial
    split
    · rename_i h
      congr 1
      refine Finset.prod_congr rfl fun i _ => ?_
      simp
    · simp
  simp [DynPoly.evaluate, DynPoly.term, h, bind, Except.bind, pure, Except.pure]

/-! ### Strings -/

theorem digitChar_ok (k : ℕ) (hk : k < 10) : (Nat.digitChar k).isDigit = true ∧ (Nat.digitChar k).toNat - '0'.toNat = k := by
  interval_cases k <;> decide

theorem ofChars_append (a b : List Char) : DynIndex.ofChars (a ++ b) =
    (do
      let x ← DynIndex.ofChars a
      let y ← DynIndex.ofChars b
      pure (x ++ y)) := by
  simp only [DynIndex.ofChars, List.mapM_append]

theorem ofChars_length {a : List Char} {v : DynIndex} (h : DynIndex.ofChars a = .ok v) : v.length = a.length := by
  induction a generalizing v with
  | nil => cases h; rfl
  | cons c a ih =>
    rw [DynIndex.ofChars, List.mapM_cons] at h
    by_cases hc : c.isDigit
    · simp only [hc, if_true, bind, Except.bind] at h
      split at h
      · cases h
      · rename_i w hw
        rw [← Except.ok.inj h, List.length_cons, ih hw, List.length_cons]
    · simp [hc, bind, Except.bind] at h

theorem toDigits_pos (k : ℕ) : 1 ≤ (Nat.toDigits 10 k).length := by
  rcases lt_or_ge k 10 with h | h
  · rw [Nat.toDigits_of_lt_base h]; simp
  · have hk : k = 10 * (k / 10) + k % 10 := by omega
    rw [hk, ← Nat.toDigits_append_toDigits (by omega) (by omega) (by omega), Nat.toDigits_of_lt_base (n := k % 10) (by omega)]
    simp

theorem toDigits_two (k : ℕ) (h : 10 ≤ k) : 2 ≤ (Nat.toDigits 10 k).length := by
  have hk : k = 10 * (k / 10) + k % 10 := by omega
  rw [hk, ← Nat.toDigits_append_toDigits (by omega) (by omega) (by omega), Nat.toDigits_of_lt_base (n := k % 10) (by omega)]
  have := toDigits_pos (k / 10)
  simp
  omega

theorem toChars_length (v : DynIndex) : v.length ≤ (DynIndex.toChars v).length ∧
    ((∃ k ∈ v, 10 ≤ k) → v.length < (DynIndex.toChars v).length) := by
  induction v with
  | nil => simp [DynIndex.toChars]
  | cons k v ih =>
    have e : (DynIndex.toChars (k :: v)).length = (Nat.toDigits 10 k).length + (DynIndex.toChars v).length := by
      simp [DynIndex.toChars]
    rw [e, List.length_cons]
    have hp := toDigits_pos k
    refine ⟨by omega, fun ⟨j, hj, hj10⟩ => ?_⟩
    rcases List.mem_cons.mp hj with rfl | h'
    · have := toDigits_two j hj10; omega
    · have := ih.2 ⟨j, h', hj10⟩; omega

/-- C100: `MomentIndex(str(idx)) == idx` exactly when all exponents have one digit. (Nothing separates the exponents.) -/
theorem C100_string_roundtrip (v : DynIndex) : DynIndex.ofChars (DynIndex.toChars v) = .ok v ↔ ∀ k ∈ v, k ≤ 9 := by
  constructor
  · intro h k hk
    by_contra hlt
    have h1 := ofChars_length h
    have h2 := (toChars_length v).2 ⟨k, hk, by omega⟩
    omega
  · intro h
    induction v with
    | nil => rfl
    | cons k v ih =>
      have hk : k < 10 := by have := h k (by simp); omega
      have e : DynIndex.toChars (k :: v) = [k.digitChar] ++ DynIndex.toChars v := by
        simp [DynIndex.toChars, Nat.toDigits_of_lt_base hk]
      rw [e, ofChars_append, ih fun j hj => h j (by simp [hj])]
      obtain ⟨h1, h2⟩ := digitChar_ok k hk
      have : DynIndex.ofChars [k.digitChar] = .ok [k] := by
        rw [DynIndex.ofChars, List.mapM_cons, h1, h2]
        rfl
      rw [this]
      rfl

/-- C100: two different indices with the same number of variables can be printed alike. -/
theorem C100_string_ambiguous : DynIndex.toChars [1, 10] = DynIndex.toChars [11, 0] ∧ ([1, 10] : DynIndex) ≠ [11, 0] := by
  decide

/-- C100: the strings that name the constraints of a cylinder (src/rigeo/shape/cylinder.py:94-96) denote the exponent vectors that
the model of the moment constraints uses. -/
theorem C100_cylinder_keys (c : Cylinder K) : [[("001", 1), ("000", 1 / 2 * c.length)], [("001", -1), ("000", 1 / 2 * c.length)],
      [("200", -1), ("020", -1), ("000", c.radius ^ 2)]].mapM DynPoly.ofStrings = .ok (c.poly0s.map Polynomial.toDyn) := by
  have h1 : DynIndex.ofChars "001".toList = .ok [0, 0, 1] := by decide
  have h2 : DynIndex.ofChars "000".toList = .ok [0, 0, 0] := by decide
  have h3 : DynIndex.ofChars "200".toList = .ok [2, 0, 0] := by decide
  have h4 : DynIndex.ofChars "020".toList = .ok [0, 2, 0] := by decide
  simp only [Cylinder.poly0s, List.map_cons, List.map_nil, ← init_dyn, List.mapM_cons, List.mapM_nil, DynPoly.ofStrings, h1, h2, h3, h4,
    bind, Except.bind, pure, Except.pure]
  rfl

end Field

/-- A polynomial in three variables, added to one in two variables: no error, but then no point can be substituted and the sum
cannot be localized. -/
example : ((⟨[([1, 0, 0], 1)]⟩ : DynPoly ℚ).add ⟨[([0, 1], 1)]⟩).coefficients = [([1, 0, 0], 1), ([0, 1], 1)] ∧
    ((⟨[([1, 0, 0], 1)]⟩ : DynPoly ℚ).add ⟨[([0, 1], 1)]⟩).evaluate ![1, 2, 3] = .error .value ∧
    ((⟨[([1, 0, 0], 1)]⟩ : DynPoly ℚ).add ⟨[([0, 1], 1)]⟩).localize [1, 0, 0] = .error .assertion := by
  have h : ((⟨[([1, 0, 0], 1)]⟩ : DynPoly ℚ).add ⟨[([0, 1], 1)]⟩).coefficients = [([1, 0, 0], 1), ([0, 1], 1)] := by
    decide +kernel
  refine ⟨h, ?_, ?_⟩
  · rw [(C100_evaluate_mixed _ _).1, h]
    exact ⟨([0, 1], 1), by simp, by simp⟩
  · apply C100_localize_mixed
    rw [h]
    exact ⟨([0, 1], 1), by simp, by simp⟩

end Rigeo
