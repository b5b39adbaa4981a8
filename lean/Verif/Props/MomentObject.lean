import Verif.Model.MomentObject
import Verif.Props.MomentIndex
import Verif.Props.Moment3
import Verif.Props.Strengthen2

/-!
# C111: moment matrices of any order, order zero included

For `d ≥ 1` the array of objects behaves as the model of `Model/Moment.lean`, to which the theorems on moment relaxations apply. For
`d = 0` the array is the single integer `0`: the moment constraints say nothing and no polynomial can be localized.
-/

namespace Rigeo

open Matrix

/-! ### Order zero -/

/-- C111: the moment matrix of order zero is the one-by-one array holding the integer `0`, not a moment index. -/
theorem C111_zero_indices (n : ℕ) : MomentObject.init n 0 = .ok [[.npInt 0]] := by
  unfold MomentObject.init
  rw [C100_basis, C20_degree_zero]
  rfl

theorem dim_zero (n : ℕ) : Polynomial.dim n 0 = 1 := by simp [Polynomial.dim]

theorem upperPairs_zero (n : ℕ) :
    MomentMatrix.upperPairs (Polynomial.dim n 0) = [(⟨0, by simp [dim_zero]⟩, ⟨0, by simp [dim_zero]⟩)] := by
  have h : ∀ (r : ℕ) (hr : r = 1), MomentMatrix.upperPairs r = [(⟨0, by omega⟩, ⟨0, by omega⟩)] := by
    intro r hr
    subst hr
    rfl
  exact h _ (dim_zero n)

section Field
variable {K : Type}

theorem varMap_zero (n : ℕ) (M : Matrix (Fin (Polynomial.dim n 0)) (Fin (Polynomial.dim n 0)) K) :
    MomentObject.computeVarMap [[.npInt 0]] M = .ok [(.npInt 0, M ⟨0, by simp [dim_zero]⟩ ⟨0, by simp [dim_zero]⟩)] := by
  unfold MomentObject.computeVarMap
  rw [upperPairs_zero]
  rfl

/-- C111: at order zero `moment_constraints` accepts every matrix. -/
theorem C111_zero_constraints (n : ℕ) (M : Matrix (Fin (Polynomial.dim n 0)) (Fin (Polynomial.dim n 0)) K) :
    Py.Holds (MomentObject.momentConstraints n 0 M) := by
  have h : MomentObject.momentConstraints n 0 M = .ok (∀ c ∈ [M ⟨0, by simp [dim_zero]⟩ ⟨0, by simp [dim_zero]⟩ =
      M ⟨0, by simp [dim_zero]⟩ ⟨0, by simp [dim_zero]⟩], c) := by
    unfold MomentObject.momentConstraints
    rw [C111_zero_indices]
    dsimp only [bind, Except.bind]
    rw [varMap_zero, upperPairs_zero]
    rfl
  exact ⟨_, h, by simp⟩

variable [Field K] [LinearOrder K]

/-- C111: at order zero nothing can be localized: `localize` raises `AttributeError` for a polynomial of degree zero and `ValueError`
for every other one (the order of the localizing matrix is negative, or the degree does not exist). -/
theorem C111_zero_localize (n : ℕ) (M : Matrix (Fin (Polynomial.dim n 0)) (Fin (Polynomial.dim n 0)) K) (p : DynPoly K) :
    MomentObject.localize n 0 M p = .error (if p.degree = .ok 0 then .attribute else .value) := by
  unfold MomentObject.localize
  rw [C111_zero_indices]
  dsimp only [bind, Except.bind]
  rw [varMap_zero]
  dsimp only
  by_cases he : p.coefficients.isEmpty
  · simp [DynPoly.degree, he]
  · obtain ⟨D, hD⟩ : ∃ D, p.degree = .ok D := by simp [DynPoly.degree, he]
    rw [hD]
    dsimp only
    by_cases h0 : D = 0
    · subst h0
      simp [MomentMatrix.halfDegree, dim_zero, MomentObject.localizedValue, MomentObject.entry, MomentObject.localizePoly, he,
        bind, Except.bind, pure, Except.pure]
    · have hv : 0 < MomentMatrix.halfDegree D := by unfold MomentMatrix.halfDegree; split <;> omega
      simp [hv, h0, throw, throwThe, MonadExceptOf.throw]

/-- C111: at order zero `localizing_matrix(0, poly)` raises `AttributeError`, or `TypeError` for the polynomial without coefficients. -/
theorem C111_zero_matrix (n : ℕ) (p : DynPoly K) :
    MomentObject.localizingMatrix n 0 0 p = .error (if p.coefficients = [] then .type else .attribute) := by
  unfold MomentObject.localizingMatrix
  rw [C111_zero_indices]
  dsimp only [bind, Except.bind]
  by_cases he : p.coefficients = [] <;>
    simp [dim_zero, MomentObject.localizingCell, MomentObject.entry, MomentObject.localizePoly, he, bind, Except.bind, pure,
      Except.pure, throw, throwThe, MonadExceptOf.throw]

example : MomentObject.localize 3 0 (Matrix.of fun _ _ => (1 : ℚ)) (DynPoly.affine ![1, 0, 0] 2) = .error .value := by
  rw [C111_zero_localize, if_neg]
  decide +kernel

end Field

/-! ### Positive order -/

section Positive
variable {K : Type} {n d : ℕ}

theorem basis_pos (hd : 1 ≤ d) :
    Polynomial.basis n d = (List.range (Polynomial.dim n d)).map fun i => some (MomentMatrix.basisIdx n d i) := by
  apply List.ext_getElem?
  intro i
  by_cases hi : i < Polynomial.dim n d
  · rw [basis_get hd hi]
    simp [hi]
  · rw [List.getElem?_eq_none (by rw [C20_length]; omega), List.getElem?_eq_none (by simp; omega)]

/-- C111: at order `d ≥ 1` the entries of the array are the sums of the multi-indices of degree at most `d`. -/
theorem C111_indices (hd : 1 ≤ d) : MomentObject.init n d = .ok ((List.range (Polynomial.dim n d)).map fun i =>
    (List.range (Polynomial.dim n d)).map fun j => .index (List.ofFn (MomentMatrix.indices n d i j))) := by
  unfold MomentObject.init
  rw [C100_basis, basis_pos hd]
  simp only [bind, Except.bind, List.map_map]
  rw [List.mapM_map]
  refine mapM_ok _ _ _ fun i _ => ?_
  simp only [Function.comp_def]
  rw [List.mapM_map]
  refine mapM_ok _ _ _ fun j _ => ?_
  simp only [Function.comp_def, operandOf, MomentObject.outerEntry, (C100_index_static _ _).2]
  rfl

theorem entry_pos (i j : ℕ) (hi : i < Polynomial.dim n d) (hj : j < Polynomial.dim n d) :
    MomentObject.entry ((List.range (Polynomial.dim n d)).map fun i =>
      (List.range (Polynomial.dim n d)).map fun j => .index (List.ofFn (MomentMatrix.indices n d i j))) i j =
      .ok (.index (List.ofFn (MomentMatrix.indices n d i j))) := by
  simp [MomentObject.entry, hi, hj]

/-- The dictionary of `Model/Moment.lean` with the keys as they are stored. -/
def objItems (l : List ((Fin n → ℕ) × K)) : List (IndexEntry × K) := l.map fun kc => (.index (List.ofFn kc.1), kc.2)

theorem objItems_set (l : List ((Fin n → ℕ) × K)) (k : Fin n → ℕ) (c : K) :
    dictSet (objItems l) (.index (List.ofFn k)) c = objItems (dictSet l k c) := by
  induction l with
  | nil => rfl
  | cons a l ih =>
    simp only [objItems, List.map_cons, dictSet, IndexEntry.index.injEq, List.ofFn_inj] at ih ⊢
    split
    · rfl
    · rw [ih]; rfl

theorem objItems_get (l : List ((Fin n → ℕ) × K)) (k : Fin n → ℕ) :
    dictGet (objItems l) (.index (List.ofFn k)) = dictGet l k := by
  induction l with
  | nil => rfl
  | cons a l ih =>
    simp only [objItems, List.map_cons, dictGet, IndexEntry.index.injEq, List.ofFn_inj] at ih ⊢
    rw [ih]

theorem varMap_pos (M : Matrix (Fin (Polynomial.dim n d)) (Fin (Polynomial.dim n d)) K) :
    MomentObject.computeVarMap ((List.range (Polynomial.dim n d)).map fun i =>
      (List.range (Polynomial.dim n d)).map fun j => .index (List.ofFn (MomentMatrix.indices n d i j))) M =
      .ok (objItems (MomentMatrix.computeVarMap n d M)) := by
  unfold MomentObject.computeVarMap MomentMatrix.computeVarMap
  have key : ∀ (l : List (Fin (Polynomial.dim n d) × Fin (Polynomial.dim n d))) (acc : List ((Fin n → ℕ) × K)),
      l.foldlM (MomentObject.varMapStep ((List.range (Polynomial.dim n d)).map fun i =>
        (List.range (Polynomial.dim n d)).map fun j => .index (List.ofFn (MomentMatrix.indices n d i j))) M) (objItems acc) =
      (.ok (objItems (l.foldl (fun acc ij => dictSet acc (MomentMatrix.indices n d ij.1 ij.2) (M ij.1 ij.2)) acc)) :
        Py (List (IndexEntry × K))) := by
    intro l
    induction l with
    | nil => intro acc; rfl
    | cons a l ih =>
      intro acc
      rw [List.foldlM_cons, MomentObject.varMapStep, entry_pos _ _ a.1.2 a.2.2]
      simp only [bind, Except.bind, pure, Except.pure, objItems_set]
      exact ih _
  exact key _ []

/-- C111: at order `d ≥ 1` the moment constraints are those of `Model/Moment.lean`. -/
theorem C111_constraints [Field K] (hd : 1 ≤ d) (M : Matrix (Fin (Polynomial.dim n d)) (Fin (Polynomial.dim n d)) K) :
    (∃ P, MomentObject.momentConstraints n d M = .ok P ∧ (P ↔ Py.Holds (MomentMatrix.momentConstraints n d M))) := by
  unfold MomentObject.momentConstraints
  rw [C111_indices hd]
  simp only [bind, Except.bind]
  rw [varMap_pos]
  dsimp only
  rw [mapM_ok _ (fun ij => dictGet (MomentMatrix.computeVarMap n d M) (MomentMatrix.indices n d ij.1 ij.2) = some (M ij.1 ij.2))]
  · refine ⟨_, rfl, ?_⟩
    rw [momentConstraints_ok hd]
    rw [List.forall_mem_map]
    exact ⟨fun h => ⟨_, rfl, h⟩, fun ⟨_, e, h⟩ => by cases e; exact h⟩
  · intro ij hij
    have hk : ∃ v, dictGet (MomentMatrix.computeVarMap n d M) (MomentMatrix.indices n d ij.1 ij.2) = some v := by
      obtain ⟨i, j, -, -, h⟩ := varMap_get hd M _ (indices_deg hd ij.1 ij.2)
      exact ⟨_, h⟩
    obtain ⟨v, hv⟩ := hk
    unfold MomentObject.momentConstraint
    rw [entry_pos _ _ ij.1.2 ij.2.2]
    simp only [bind, Except.bind, objItems_get, hv, pure, Except.pure, Option.some.injEq]

/-- Python's loop over a list, when `KeyError` is the only exception: the values, or the exception. -/
theorem mapM_key {α β : Type} (f : α → Py β) (hf : ∀ a e, f a = .error e → e = .key) (b0 : β) : ∀ l : List α,
    ((∀ a ∈ l, ∃ b, f a = .ok b) → l.mapM f = .ok (l.map fun a => (f a).toOption.getD b0)) ∧
      ((∃ a ∈ l, f a = .error .key) → l.mapM f = .error .key)
  | [] => ⟨fun _ => rfl, fun h => by simp at h⟩
  | a :: l => by
    obtain ⟨ih1, ih2⟩ := mapM_key f hf b0 l
    refine ⟨fun h => ?_, fun h => ?_⟩
    · obtain ⟨b, hb⟩ := h a (by simp)
      rw [List.mapM_cons, hb, ih1 fun c hc => h c (by simp [hc])]
      simp [bind, Except.bind, pure, Except.pure, hb, Except.toOption]
    · rw [List.mapM_cons]
      rcases ha : f a with e | b
      · cases hf a e ha
        rfl
      · have hl : ∃ c ∈ l, f c = .error .key := by
          obtain ⟨c, hc, hce⟩ := h
          rcases List.mem_cons.mp hc with rfl | hc
          · rw [ha] at hce; cases hce
          · exact ⟨c, hc, hce⟩
        rw [ih2 hl]
        rfl

theorem mapM_congr' {α β : Type} {f g : α → Py β} : ∀ l : List α, (∀ a ∈ l, f a = g a) → l.mapM f = l.mapM g
  | [], _ => rfl
  | a :: l, h => by rw [List.mapM_cons, List.mapM_cons, h a (by simp), mapM_congr' l fun b hb => h b (by simp [hb])]

theorem substitute_key [Field K] [LinearOrder K] [IsStrictOrderedRing K] (p : Polynomial K n) (m : List ((Fin n → ℕ) × K)) (e : PyErr) (h : p.substitute m = .error e) :
    e = .key := by
  by_contra hne
  by_cases hx : ∃ kc ∈ p.coefficients, dictGet m kc.1 = none
  · rw [(C22_key_error p m).2 hx] at h
    cases h
    exact hne rfl
  · push Not at hx
    rw [(C22_key_error p m).1 (fun α => (dictGet m α).getD 0) (fun kc hkc => by
      obtain ⟨v, hv⟩ := Option.ne_none_iff_exists'.mp (hx kc hkc)
      simp [hv])] at h
    cases h

theorem substitute_obj [Field K] (p : Polynomial K n) (m : List ((Fin n → ℕ) × K)) :
    MomentObject.substitute p.toDyn (objItems m) = p.substitute m := by
  unfold MomentObject.substitute Polynomial.substitute Polynomial.toDyn
  rw [List.mapM_map]
  simp only [objItems_get, Function.comp_def]
  rfl

/-- C111: at order `d ≥ 1` the localizing matrix of a value of the moment matrix, and the exceptions, are those of
`Model/Moment.lean`. -/
theorem C111_localize [Field K] [LinearOrder K] [IsStrictOrderedRing K] (hd : 1 ≤ d) (M : Matrix (Fin (Polynomial.dim n d)) (Fin (Polynomial.dim n d)) K)
    (p : Polynomial K n) :
    MomentObject.localize n d M p.toDyn =
      (MomentMatrix.localize n d M p).map fun L => List.ofFn fun i => List.ofFn fun j => L.2 i j := by
  unfold MomentObject.localize MomentMatrix.localize
  rw [C111_indices hd, C100_degree]
  simp only [bind, Except.bind]
  rw [varMap_pos]
  rcases hD : p.degree with e | D
  · rfl
  · dsimp only
    by_cases hv : d < MomentMatrix.halfDegree D
    · simp only [hv, if_true]
      rfl
    · simp only [hv, if_false, pure, Except.pure]
      have hr : Polynomial.dim n (d - MomentMatrix.halfDegree D) ≤ Polynomial.dim n d := dim_mono n (Nat.sub_le _ _)
      generalize hr' : Polynomial.dim n (d - MomentMatrix.halfDegree D) = r at hr ⊢
      have hval : ∀ i j : ℕ, i < r → j < r → MomentObject.localizedValue ((List.range (Polynomial.dim n d)).map fun i =>
          (List.range (Polynomial.dim n d)).map fun j => .index (List.ofFn (MomentMatrix.indices n d i j)))
          (objItems (MomentMatrix.computeVarMap n d M)) p.toDyn i j =
          (MomentMatrix.localizingEntry n d p i j).substitute (MomentMatrix.computeVarMap n d M) := by
        intro i j hi hj
        unfold MomentObject.localizedValue
        rw [entry_pos i j (by omega) (by omega)]
        simp only [bind, Except.bind, MomentObject.localizePoly, C100_localize, substitute_obj]
        rfl
      set L : ℕ → ℕ → Py K := fun i j =>
        (MomentMatrix.localizingEntry n d p i j).substitute (MomentMatrix.computeVarMap n d M) with hL
      have hkey : ∀ i j e, L i j = .error e → e = .key := fun i j e h => substitute_key _ _ e h
      have hrows : (List.range r).mapM (fun i => (List.range r).mapM fun j => MomentObject.localizedValue
          ((List.range (Polynomial.dim n d)).map fun i =>
            (List.range (Polynomial.dim n d)).map fun j => .index (List.ofFn (MomentMatrix.indices n d i j)))
          (objItems (MomentMatrix.computeVarMap n d M)) p.toDyn i j) =
          (List.range r).mapM (fun i => (List.range r).mapM fun j => L i j) := by
        refine mapM_congr' _ fun i hi => mapM_congr' _ fun j hj => ?_
        exact hval i j (List.mem_range.mp hi) (List.mem_range.mp hj)
      rw [hrows]
      have hrowkey : ∀ i e, (List.range r).mapM (fun j => L i j) = .error e → e = .key := by
        intro i e h
        by_contra hne
        by_cases hx : ∃ j ∈ List.range r, L i j = .error .key
        · rw [(mapM_key _ (hkey i) 0 _).2 hx] at h
          cases h
          exact hne rfl
        · rw [(mapM_key _ (hkey i) 0 _).1] at h
          · cases h
          · intro j hj
            rcases hLj : L i j with e' | b
            · cases hkey i j e' hLj
              exact absurd ⟨j, hj, hLj⟩ hx
            · exact ⟨b, rfl⟩
      by_cases hall : ∀ i j : Fin r, (L i j).toBool = true
      · rw [if_pos hall]
        have hok : ∀ i j : ℕ, i < r → j < r → ∃ b, L i j = .ok b := by
          intro i j hi hj
          have := hall ⟨i, hi⟩ ⟨j, hj⟩
          dsimp only at this
          rcases hLj : L i j with e' | b
          · rw [hLj] at this; cases this
          · exact ⟨b, rfl⟩
        have hrow : ∀ i, i < r → (List.range r).mapM (fun j => L i j) =
            .ok ((List.range r).map fun j => (L i j).toOption.getD 0) := fun i hi =>
          (mapM_key _ (hkey i) 0 _).1 fun j hj => hok i j hi (List.mem_range.mp hj)
        rw [mapM_ok _ (fun i => (List.range r).map fun j => (L i j).toOption.getD 0) _ fun i hi => hrow i (List.mem_range.mp hi)]
        simp only [Except.map, Matrix.of_apply]
        congr 1
        rw [← List.map_coe_finRange_eq_range, List.map_map, List.ofFn_eq_map]
        apply List.map_congr_left
        intro i _
        rw [List.ofFn_eq_map]
        simp only [Function.comp_apply, List.map_map]
        rfl
      · rw [if_neg hall]
        push Not at hall
        obtain ⟨i, j, hij⟩ := hall
        have he : L i j = .error .key := by
          rcases hLj : L i j with e' | b
          · cases hkey i j e' hLj
            rfl
          · rw [hLj] at hij; exact absurd rfl hij
        rw [(mapM_key _ hrowkey [] _).2 ⟨i, List.mem_range.mpr i.2,
          (mapM_key _ (hkey i) 0 _).2 ⟨j, List.mem_range.mpr j.2, he⟩⟩]
        rfl

/-- A list comprehension stops at the first exception. -/
theorem mapM_first_error {α β : Type} (f : α → Py β) (e : PyErr) (x : α) (rest : List α) (hx : f x = .error e) :
    ∀ l : List α, (∀ a ∈ l, ∃ b, f a = .ok b) → (l ++ x :: rest).mapM f = .error e
  | [], _ => by simp [List.mapM_cons, hx, bind, Except.bind]
  | a :: l, h => by
    obtain ⟨b, hb⟩ := h a (by simp)
    have ih := mapM_first_error f e x rest hx l fun a' ha' => h a' (by simp [ha'])
    simp only [List.cons_append, List.mapM_cons, hb, bind, Except.bind, ih]

/-- C111: at order `d ≥ 1` the entries of `localizing_matrix(d', poly)` are the localized polynomials of `Model/Moment.lean` for every
`d' ≤ d`, as polynomials and not as arrays. -/
theorem C111_matrix [Field K] [LinearOrder K] [IsStrictOrderedRing K] (hd : 1 ≤ d) (d' : ℕ) (hd' : d' ≤ d) (p : Polynomial K n) :
    MomentObject.localizingMatrix n d d' p.toDyn = .ok ((List.range (Polynomial.dim n d')).map fun i =>
      (List.range (Polynomial.dim n d')).map fun j => (p.localize (MomentMatrix.indices n d i j)).toDyn) := by
  unfold MomentObject.localizingMatrix
  rw [C111_indices hd]
  simp only [bind, Except.bind]
  have hr := dim_mono n hd'
  refine mapM_ok _ _ _ fun i hi => mapM_ok _ _ _ fun j hj => ?_
  rw [List.mem_range] at hi hj
  unfold MomentObject.localizingCell
  rw [entry_pos i j (by omega) (by omega)]
  simp only [bind, Except.bind, MomentObject.localizePoly, C100_localize]
  rfl

/-- C111: `localizing_matrix(d', poly)` raises `IndexError` for every `d' > d ≥ 1`, if there is a variable. -/
theorem C111_matrix_large [Field K] [LinearOrder K] [IsStrictOrderedRing K] (hn : 1 ≤ n) (hd : 1 ≤ d) (d' : ℕ) (hd' : d < d') (p : Polynomial K n) :
    MomentObject.localizingMatrix n d d' p.toDyn = .error .index := by
  unfold MomentObject.localizingMatrix
  rw [C111_indices hd]
  simp only [bind, Except.bind]
  have hr : Polynomial.dim n d < Polynomial.dim n d' := by
    refine lt_of_lt_of_le ?_ (dim_mono n (show d + 1 ≤ d' from hd'))
    unfold Polynomial.dim
    have := Nat.choose_succ_succ (n + d) d
    have h2 : 0 < (n + d).choose (d + 1) := Nat.choose_pos (by omega)
    rw [show n + (d + 1) = n + d + 1 by ring]
    simp only [Nat.succ_eq_add_one] at this
    omega
  have hsplit : ∀ k m : ℕ, k < m → List.range m = List.range k ++ k :: (List.range (m - k - 1)).map (k + 1 + ·) := by
    intro k m hk
    conv_lhs => rw [show m = k + (m - k - 1 + 1) by omega, List.range_add]
    rw [List.range_succ_eq_map, List.map_cons, List.map_map]
    congr 2
    refine List.map_congr_left fun a _ => ?_
    simp only [Function.comp]
    omega
  have h0 : 0 < Polynomial.dim n d' := by omega
  rw [hsplit 0 _ h0]
  refine mapM_first_error _ _ 0 _ ?_ [] (by simp)
  rw [← hsplit 0 _ h0, hsplit _ _ hr]
  refine mapM_first_error _ _ _ _ ?_ _ fun j hj => ?_
  · unfold MomentObject.localizingCell MomentObject.entry
    have hdpos : 0 < Polynomial.dim n d := Nat.choose_pos (by omega)
    simp [List.getElem?_map, List.getElem?_range hdpos, bind, Except.bind]
  · rw [List.mem_range] at hj
    unfold MomentObject.localizingCell
    rw [entry_pos 0 j (by omega) hj]
    simp only [bind, Except.bind, MomentObject.localizePoly, C100_localize]
    exact ⟨_, rfl⟩

/-- Not vacuous: at order one in one variable the array is that of `[1, x]`. -/
theorem init_one_one : MomentObject.init 1 1 = .ok [[.index [0], .index [1]], [.index [1], .index [2]]] := by
  simp [MomentObject.init, DynPoly.basis, combosWithReplacement, DynIndex.pySum, DynIndex.sumStep, DynIndex.radd, DynIndex.add,
    MomentObject.outerEntry, DynIndex.mul, pyAssert, bind, Except.bind, pure, Except.pure]

/-- The measure with moments 2, 3, 5 and the polynomial `4 - x`: its integral is `4 * 2 - 3`. -/
example : MomentObject.localize 1 1 !![(2 : ℚ), 3; 3, 5] ⟨[([0], 4), ([1], -1)]⟩ = .ok [[5]] := by
  unfold MomentObject.localize
  rw [init_one_one]
  decide +kernel

example : MomentObject.localize 1 0 !![(2 : ℚ)] ⟨[([0], 4)]⟩ = .error .attribute := by
  exact (C111_zero_localize 1 _ _).trans (by decide +kernel)

/-- C111: the constraint of a face with a nonzero normal, so `moment_sdp_constraints(..., d=0)` of a polyhedron (whose first face is
localized first) raises `ValueError`. -/
theorem C111_zero_face [Field K] [LinearOrder K] [IsStrictOrderedRing K]
    (M : Matrix (Fin (Polynomial.dim n 0)) (Fin (Polynomial.dim n 0)) K) (a : Fin n → K) (b : K) (ha : a ≠ 0) :
    MomentObject.localize n 0 M (DynPoly.affine a b) = .error .value := by
  rw [C111_zero_localize, C100_affine, C100_degree, affine_degree_one a b ha]
  rfl

example := C111_matrix (K := ℚ) (n := 3) (d := 2) (by norm_num) 1 (by norm_num) (Polynomial.affine ![1, 0, 0] 2)

example := C111_matrix_large (K := ℚ) (n := 3) (d := 2) (by norm_num) (by norm_num) 5 (by norm_num) (Polynomial.affine ![1, 0, 0] 2)

end Positive

end Rigeo
