import Verif.Model.Memory
import Verif.Spec.Memory
import Verif.Props.Moment
import Verif.Props.MultiBody

/-!
# C108: which objects are changed and shared
-/

namespace Rigeo

open Matrix

namespace Prog
variable {D α β : Type}

theorem exec_bind (p : Prog D α) (f : α → Prog D β) (m : List D) : exec (p >>= f) m =
    match exec p m with
    | (.ok a, m') => exec (f a) m'
    | (.error e, m') => (.error e, m') := by
  unfold exec
  rw [ExceptT.run_bind, StateT.run_bind]
  rcases h : StateT.run (ExceptT.run p) m with ⟨_ | _, m'⟩ <;> rfl

theorem exec_pure (a : α) (m : List D) : exec (pure a : Prog D α) m = (.ok a, m) := rfl

theorem exec_pure' (x : Py α) (m : List D) : exec (pure' x : Prog D α) m = (x, m) := rfl

theorem exec_new (x : D) (m : List D) : exec (new x) m = (.ok m.length, m ++ [x]) := rfl

theorem exec_write (r : ℕ) (x : D) (m : List D) : exec (write r x) m = (.ok (), m.set r x) := rfl

theorem exec_read {r : ℕ} {x : D} {m : List D} (h : m[r]? = some x) : exec (read r) m = (.ok x, m) := by
  change (match m[r]? with | some x => ((Except.ok x : Py D), m) | none => (.error .key, m)) = _
  rw [h]

/-- A loop that updates one object. -/
theorem exec_forM {γ : Type} (f : γ → Prog D Unit) (g : D → γ → D) (r : ℕ)
    (hf : ∀ x d m, m[r]? = some d → exec (f x) m = (.ok (), m.set r (g d x))) (l : List γ) (d : D) (m : List D)
    (hm : m[r]? = some d) : exec (l.forM f) m = (.ok (), m.set r (l.foldl g d)) := by
  induction l generalizing d m with
  | nil =>
    obtain ⟨h, rfl⟩ := List.getElem?_eq_some_iff.mp hm
    simp only [List.foldl_nil, List.set_getElem_self]
    rfl
  | cons x l ih =>
    rw [show (x :: l).forM f = f x >>= fun _ => l.forM f from rfl, exec_bind, hf x d m hm]
    dsimp only
    obtain ⟨h, -⟩ := List.getElem?_eq_some_iff.mp hm
    rw [ih (g d x) _ (by simp [h]), List.set_set]
    rfl

end Prog

theorem unchanged_append {D : Type} (m l : List D) : Spec.Unchanged m (m ++ l) := fun r hr => by simp [List.getElem?_append_left hr]

section Poly
variable {K : Type} [Field K] [LinearOrder K] {n : ℕ}

theorem PolyRef.exec_init {c : ℕ} {items : PolyRef.Dicts K n} (tol : K) {m : List (PolyRef.Dicts K n)} (hc : m[c]? = some items) :
    Prog.exec (PolyRef.init c tol) m = (.ok m.length, m ++ [(Polynomial.init items tol).coefficients]) := by
  have hlt : c < m.length := (List.getElem?_eq_some_iff.mp hc).1
  unfold PolyRef.init
  rw [Prog.exec_bind, Prog.exec_new]
  dsimp only
  rw [Prog.exec_bind, Prog.exec_read (x := items) (by rw [List.getElem?_append_left hlt, hc])]
  dsimp only
  rw [Prog.exec_bind, Prog.exec_forM _ (fun d kc => if isclose kc.2 0 0 tol then d else dictSet d kc.1 kc.2) m.length ?_ items []
    (m ++ [[]]) (by simp)]
  · dsimp only
    rw [Prog.exec_pure, List.set_append_right _ _ le_rfl, Nat.sub_self]
    rfl
  · intro kc d m' hd
    by_cases h : isclose kc.2 0 0 tol
    · obtain ⟨h', rfl⟩ := List.getElem?_eq_some_iff.mp hd
      simp only [h, if_true, List.set_getElem_self]
      rfl
    · simp only [h]
      rw [if_neg (by simp), Prog.exec_bind, Prog.exec_read hd]
      simp only [Bool.false_eq_true, if_false]
      rfl

theorem PolyRef.exec_add {p q : ℕ} {P Q : PolyRef.Dicts K n} {m : List (PolyRef.Dicts K n)} (hp : m[p]? = some P)
    (hq : m[q]? = some Q) : ∃ d, Prog.exec (PolyRef.add p q) m =
      (.ok (m.length + 1), m ++ [d, ((⟨P⟩ : Polynomial K n).add ⟨Q⟩).coefficients]) := by
  have hlt : q < m.length := (List.getElem?_eq_some_iff.mp hq).1
  unfold PolyRef.add
  rw [Prog.exec_bind, Prog.exec_read hp]
  dsimp only
  rw [Prog.exec_bind, Prog.exec_new]
  dsimp only
  rw [Prog.exec_bind, Prog.exec_read (x := Q) (by rw [List.getElem?_append_left hlt, hq])]
  dsimp only
  rw [Prog.exec_bind, Prog.exec_forM _ (fun acc kc =>
    match dictGet acc kc.1 with
    | some v => dictSet acc kc.1 (v + kc.2)
    | none => dictSet acc kc.1 kc.2) m.length ?_ Q P (m ++ [P]) (by simp)]
  · dsimp only
    rw [List.set_append_right _ _ le_rfl, Nat.sub_self, List.set_cons_zero, PolyRef.exec_init 0 (by simp; rfl)]
    exact ⟨_, by rw [List.append_assoc, List.length_append]; rfl⟩
  · intro kc d m' hd
    rw [Prog.exec_bind, Prog.exec_read hd]
    dsimp only
    cases dictGet d kc.1 <;> rfl

variable [IsStrictOrderedRing K]

/-- C108: adding two polynomials, also a polynomial to itself, changes no dictionary that existed before; the sum has a
dictionary of its own, which holds the sum of the two. -/
theorem C108_add (m : List (PolyRef.Dicts K n)) (p q : ℕ) (P Q : Polynomial K n) (hp : m[p]? = some P.coefficients)
    (hq : m[q]? = some Q.coefficients) (hP : P.WF) :
    ∃ r m' S, Prog.exec (PolyRef.add p q) m = (.ok r, m') ∧ Spec.Unchanged m m' ∧ m.length ≤ r ∧
      m'[r]? = some S.coefficients ∧ S = P.add Q ∧ ∀ x, S.evaluate x = P.evaluate x + Q.evaluate x := by
  obtain ⟨d, h⟩ := PolyRef.exec_add hp hq
  exact ⟨_, _, P.add Q, h, unchanged_append _ _, by omega, by simp, rfl, fun x => (C21_add P Q hP x).2⟩

/-- C108: the same for `localize`. -/
theorem C108_localize (m : List (PolyRef.Dicts K n)) (p : ℕ) (P : Polynomial K n) (hp : m[p]? = some P.coefficients)
    (idx : Fin n → ℕ) :
    ∃ r m' S, Prog.exec (PolyRef.localize p idx) m = (.ok r, m') ∧ Spec.Unchanged m m' ∧ m.length ≤ r ∧
      m'[r]? = some S.coefficients ∧ S = P.localize idx := by
  have h : Prog.exec (PolyRef.localize p idx) m = (.ok (m.length + 1), m ++
      [P.coefficients.foldl (fun acc kc => dictSet acc (kc.1 + idx) kc.2) [], (P.localize idx).coefficients]) := by
    unfold PolyRef.localize
    rw [Prog.exec_bind, Prog.exec_read hp]
    dsimp only
    rw [Prog.exec_bind, Prog.exec_new]
    dsimp only
    rw [PolyRef.exec_init 0 (by simp; rfl), List.append_assoc, List.length_append]
    rfl
  exact ⟨_, _, P.localize idx, h, unchanged_append _ _, Nat.le_succ _, by simp, rfl⟩

/-- C108: the constructor copies: it changes no dictionary, and the polynomial does not share the dictionary it is given. -/
theorem C108_polynomial (m : List (PolyRef.Dicts K n)) (c : ℕ) (items : PolyRef.Dicts K n) (hc : m[c]? = some items) (tol : K) :
    ∃ r m', Prog.exec (PolyRef.init c tol) m = (.ok r, m') ∧ Spec.Unchanged m m' ∧ m.length ≤ r ∧
      m'[r]? = some (Polynomial.init items tol).coefficients :=
  ⟨_, _, PolyRef.exec_init tol hc, unchanged_append _ _, le_rfl, by simp⟩

omit [IsStrictOrderedRing K] in
theorem localize_loop {indices : ℕ} {p : Polynomial K n} {m : List (ℕ × ℕ → Cell K n)} (hlt : indices < m.length)
    (a : ℕ × ℕ → Cell K n) (ha : m[indices]? = some a) (l : List (ℕ × ℕ)) (v : ℕ × ℕ → Fin n → ℕ)
    (hl : ∀ ij ∈ l, a ij = .index (v ij)) (b : ℕ × ℕ → Cell K n) :
    ∃ b', Prog.exec (l.forM (MomentMatrixRef.localizeEntry indices m.length p)) (m ++ [b]) = (.ok (), m ++ [b']) ∧
      ∀ ij, b' ij = if ij ∈ l then .poly (p.localize (v ij)) else b ij := by
  induction l generalizing b with
  | nil => exact ⟨b, rfl, by simp⟩
  | cons x l ih =>
    obtain ⟨b', h1, h2⟩ := ih (fun ij h => hl ij (by simp [h])) (Function.update b x (.poly (p.localize (v x))))
    refine ⟨b', ?_, fun ij => ?_⟩
    · rw [show (x :: l).forM (MomentMatrixRef.localizeEntry indices m.length p) =
        MomentMatrixRef.localizeEntry indices m.length p x >>= fun _ => l.forM (MomentMatrixRef.localizeEntry indices m.length p)
        from rfl, Prog.exec_bind]
      unfold MomentMatrixRef.localizeEntry
      rw [Prog.exec_bind, Prog.exec_read (x := a) (by rw [List.getElem?_append_left hlt, ha])]
      dsimp only
      rw [hl x (by simp)]
      dsimp only
      rw [Prog.exec_bind, Prog.exec_read (x := b) (by simp)]
      dsimp only
      rw [Prog.exec_write, List.set_append_right _ _ le_rfl, Nat.sub_self, List.set_cons_zero]
      exact h1
    · rw [h2]
      by_cases h : ij ∈ l
      · simp [h]
      · by_cases hx : ij = x
        · simp [hx]
        · simp [h, hx]

omit [IsStrictOrderedRing K] in
/-- C108: `localizing_matrix` fills a copy: the array of indices of the moment matrix, and every other array, stays as it is,
so the method can be called again. -/
theorem C108_localizing (m : List (ℕ × ℕ → Cell K n)) (indices r : ℕ) (a : ℕ × ℕ → Cell K n) (ha : m[indices]? = some a)
    (v : ℕ × ℕ → Fin n → ℕ) (hv : ∀ i j, i < r → j < r → a (i, j) = .index (v (i, j))) (p : Polynomial K n) :
    ∃ M m' b, Prog.exec (MomentMatrixRef.localizingMatrix indices r p) m = (.ok M, m') ∧ Spec.Unchanged m m' ∧ m.length ≤ M ∧
      m'[M]? = some b ∧ ∀ i j, i < r → j < r → b (i, j) = .poly (p.localize (v (i, j))) := by
  obtain ⟨b, h1, h2⟩ := localize_loop (List.getElem?_eq_some_iff.mp ha).1 a ha ((List.range r).product (List.range r)) v
    (p := p) (by simpa using hv) a
  refine ⟨m.length, m ++ [b], b, ?_, unchanged_append _ _, le_rfl, by simp, fun i j hi hj => by simp [h2, hi, hj]⟩
  unfold MomentMatrixRef.localizingMatrix
  rw [Prog.exec_bind, Prog.exec_read ha]
  dsimp only
  rw [Prog.exec_bind, Prog.exec_new]
  dsimp only
  rw [Prog.exec_bind, h1]
  rfl

end Poly

section Body
variable {K : Type} [Field K] [LinearOrder K]

theorem BodyRef.view_eq {m : List (List (AnyShape K))} {b : BodyRef K} {B : RigidBody K} (h : b.view m = some B) :
    m[b.shapes]? = some B.shapes ∧ b.params = B.params := by
  unfold BodyRef.view at h
  obtain ⟨l, h1, h2⟩ := Option.map_eq_some_iff.mp h
  subst h2
  exact ⟨h1, rfl⟩

/-- C108: the sum of two bodies has a list of its own, and no list is changed. -/
theorem C108_body_add (m : List (List (AnyShape K))) (b b' : BodyRef K) (B B' : RigidBody K) (hb : b.view m = some B)
    (hb' : b'.view m = some B') :
    ∃ r m', Prog.exec (b.add b') m = (r, m') ∧ Spec.Unchanged m m' ∧ (∀ c, r = .ok c → m.length ≤ c.shapes) ∧
      r.map (fun c => c.view m') = (B.add B').map some := by
  obtain ⟨h1, h2⟩ := BodyRef.view_eq hb
  obtain ⟨h1', h2'⟩ := BodyRef.view_eq hb'
  refine ⟨_, _, Prod.mk.eta.symm, ?_⟩
  unfold BodyRef.add
  rw [Prog.exec_bind, Prog.exec_read h1]
  dsimp only
  rw [Prog.exec_bind, Prog.exec_read h1']
  dsimp only
  rw [Prog.exec_bind, Prog.exec_new]
  dsimp only
  rw [Prog.exec_bind, Prog.exec_pure', RigidBody.add, h2, h2']
  cases hp : B.params.add B'.params with
  | error e => exact ⟨unchanged_append _ _, by rintro c ⟨⟩, by simp [Except.map, bind, Except.bind]⟩
  | ok p =>
    refine ⟨unchanged_append _ _, ?_, ?_⟩
    · rintro c ⟨⟩
      exact le_rfl
    · exact congrArg Except.ok (show BodyRef.view (m ++ [B.shapes ++ B'.shapes]) ⟨m.length, p⟩ = _ by simp [BodyRef.view])

/-- C108: a transformed body has a list of its own, and no list is changed. -/
theorem C108_body_transform (cdd : CddLib K) (m : List (List (AnyShape K))) (b : BodyRef K) (B : RigidBody K)
    (hb : b.view m = some B) (R : Option (Matrix (Fin 3) (Fin 3) K)) (t : Option (Fin 3 → K)) :
    ∃ r m', Prog.exec (b.transform cdd R t) m = (r, m') ∧ Spec.Unchanged m m' ∧ (∀ c, r = .ok c → m.length ≤ c.shapes) ∧
      r.map (fun c => c.view m') = (B.transform cdd R t).map some := by
  obtain ⟨h1, h2⟩ := BodyRef.view_eq hb
  refine ⟨_, _, Prod.mk.eta.symm, ?_⟩
  unfold BodyRef.transform RigidBody.transform
  dsimp only
  rw [Prog.exec_bind, Prog.exec_read h1]
  dsimp only
  rw [Prog.exec_bind, Prog.exec_pure']
  cases hs : B.shapes.mapM fun s => s.transform cdd (some (R.getD 1)) (some (t.getD 0)) with
  | error e => exact ⟨fun _ _ => rfl, by rintro c ⟨⟩, by simp [Except.map, bind, Except.bind]⟩
  | ok l =>
    dsimp only
    rw [Prog.exec_bind, Prog.exec_new]
    dsimp only
    rw [Prog.exec_bind, Prog.exec_pure', h2]
    cases hp : B.params.transform (some (R.getD 1)) (some (t.getD 0)) with
    | error e => exact ⟨unchanged_append _ _, by rintro c ⟨⟩, by simp [Except.map, bind, Except.bind, hp]⟩
    | ok p =>
      refine ⟨unchanged_append _ _, ?_, ?_⟩
      · rintro c ⟨⟩
        exact le_rfl
      · simp only [bind, Except.bind, hp]
        exact congrArg Except.ok (show BodyRef.view (m ++ [l]) ⟨m.length, p⟩ = some ⟨l, p⟩ by simp [BodyRef.view])

/-- C108: a body made from a list keeps that list: a shape appended to the list later is a shape of the body, and of every
other body made from the list. A body made from one shape has a list of its own. -/
theorem C108_body_shared (m : List (List (AnyShape K))) (p : IP K) :
    (∀ list l s, m[list]? = some l → ∃ b, Prog.exec (BodyRef.init (.inl list) (some p)) m = (.ok b, m) ∧
      b.view m = some ⟨l, p⟩ ∧ b.view (m.set list (l ++ [s])) = some ⟨l ++ [s], p⟩) ∧
    (∀ s, ∃ b m', Prog.exec (BodyRef.init (.inr s) (some p)) m = (.ok b, m') ∧ Spec.Unchanged m m' ∧ m.length ≤ b.shapes ∧
      b.view m' = some ⟨[s], p⟩) := by
  refine ⟨fun list l s h => ⟨⟨list, p⟩, rfl, by simp [BodyRef.view, h], ?_⟩, fun s => ⟨⟨m.length, p⟩, m ++ [[s]], rfl,
    unchanged_append _ _, le_rfl, by simp [BodyRef.view]⟩⟩
  have := (List.getElem?_eq_some_iff.mp h).1
  simp [BodyRef.view, this]

/-- C108: `0 + body`, the first step of `sum(bodies)`, is the body itself and not a copy; with two bodies the sum is a new
body. -/
theorem C108_body_sum (m : List (List (AnyShape K))) (b b' : BodyRef K) (B B' : RigidBody K) (hb : b.view m = some B)
    (hb' : b'.view m = some B') :
    Prog.exec (BodyRef.sum [b]) m = (.ok (some b), m) ∧
    ∀ c m', Prog.exec (BodyRef.sum [b, b']) m = (.ok (some c), m') → Spec.Unchanged m m' ∧ m.length ≤ c.shapes ∧
      ∃ C, B.add B' = .ok C ∧ c.view m' = some C := by
  refine ⟨rfl, fun c m' h => ?_⟩
  obtain ⟨r, m'', h1, h2, h3, h4⟩ := C108_body_add m b b' B B' hb hb'
  have h' : Prog.exec (BodyRef.sumStep (some b) b' >>= fun x => pure x) m = (.ok (some c), m') := h
  unfold BodyRef.sumStep at h'
  dsimp only at h'
  rw [Prog.exec_bind, Prog.exec_bind, h1] at h'
  cases r with
  | error e => cases h'
  | ok d =>
    dsimp only at h'
    rw [Prog.exec_pure] at h'
    cases h'
    refine ⟨h2, h3 _ rfl, ?_⟩
    cases hC : B.add B' with
    | error e => rw [hC] at h4; cases h4
    | ok C =>
      rw [hC] at h4
      exact ⟨C, rfl, Except.ok.inj h4⟩

/-! ### The loop of the multibody -/

/-- The bodies in the memory `m` are the values `vals`, each with a list of its own created after the first `k`. -/
structure BodyRef.Inv (k : ℕ) (m : List (List (AnyShape K))) (bodies : List (ℕ × BodyRef K)) (vals : List (ℕ × RigidBody K)) :
    Prop where
  view : List.Forall₂ (fun a b => a.1 = b.1 ∧ a.2.view m = some b.2) bodies vals
  fresh : ∀ jb ∈ bodies, k ≤ jb.2.shapes
  nodup : (bodies.map fun jb => jb.2.shapes).Nodup

theorem BodyRef.dictGet_none {m : List (List (AnyShape K))} {bodies : List (ℕ × BodyRef K)} {vals : List (ℕ × RigidBody K)}
    (h : List.Forall₂ (fun a b => a.1 = b.1 ∧ a.2.view m = some b.2) bodies vals) (j : ℕ) (hj : dictGet bodies j = none) :
    dictGet vals j = none ∧ (∀ b, dictSet bodies j b = bodies ++ [(j, b)]) ∧ ∀ B, dictSet vals j B = vals ++ [(j, B)] := by
  induction h with
  | nil => exact ⟨rfl, fun _ => rfl, fun _ => rfl⟩
  | @cons a b l l' hab _ ih =>
    have hne : a.1 ≠ j := fun h => by simp [dictGet, h] at hj
    simp only [dictGet, if_neg hne] at hj
    obtain ⟨h1, h2, h3⟩ := ih hj
    have hne' : b.1 ≠ j := hab.1 ▸ hne
    exact ⟨by simp only [dictGet, if_neg hne', h1], fun _ => by simp only [dictSet, if_neg hne, h2, List.cons_append],
      fun _ => by simp only [dictSet, if_neg hne', h3, List.cons_append]⟩

theorem BodyRef.view_set {m : List (List (AnyShape K))} {b : BodyRef K} {r : ℕ} (h : b.shapes ≠ r) (l : List (AnyShape K)) :
    b.view (m.set r l) = b.view m := by
  unfold BodyRef.view
  rw [List.getElem?_set_ne (Ne.symm h)]

theorem BodyRef.view_mono {m m' : List (List (AnyShape K))} {bodies : List (ℕ × BodyRef K)} {vals : List (ℕ × RigidBody K)}
    (h : List.Forall₂ (fun a b => a.1 = b.1 ∧ a.2.view m = some b.2) bodies vals)
    (hm : ∀ jb ∈ bodies, jb.2.view m' = jb.2.view m) :
    List.Forall₂ (fun a b => a.1 = b.1 ∧ a.2.view m' = some b.2) bodies vals := by
  induction h with
  | nil => exact .nil
  | @cons a b l l' hab hl ih =>
    exact .cons ⟨hab.1, (hm a (by simp)).trans hab.2⟩ (ih fun jb hjb => hm jb (by simp [hjb]))

theorem BodyRef.dictGet_some {m : List (List (AnyShape K))} {bodies : List (ℕ × BodyRef K)} {vals : List (ℕ × RigidBody K)}
    (h : List.Forall₂ (fun a b => a.1 = b.1 ∧ a.2.view m = some b.2) bodies vals)
    (hn : (bodies.map fun jb => jb.2.shapes).Nodup) (j : ℕ) (body : BodyRef K) (hj : dictGet bodies j = some body) :
    ∃ B, dictGet vals j = some B ∧ body.view m = some B ∧ (∃ i, (i, body) ∈ bodies) ∧ ∀ s,
      List.Forall₂ (fun a b => a.1 = b.1 ∧ a.2.view (m.set body.shapes (B.shapes ++ [s])) = some b.2) bodies
        (dictSet vals j ⟨B.shapes ++ [s], B.params⟩) := by
  induction h with
  | nil => cases hj
  | @cons a b l l' hab hl ih =>
    rw [List.map_cons, List.nodup_cons] at hn
    by_cases he : a.1 = j
    · have he' : b.1 = j := hab.1 ▸ he
      simp only [dictGet, if_pos he, Option.some.injEq] at hj
      subst hj
      refine ⟨b.2, by simp only [dictGet, if_pos he'], hab.2, ⟨a.1, by simp⟩, fun s => ?_⟩
      simp only [dictSet, if_pos he']
      obtain ⟨h1, h2⟩ := BodyRef.view_eq hab.2
      refine .cons ⟨he, ?_⟩ (BodyRef.view_mono hl fun jb hjb => BodyRef.view_set (fun h => ?_) _)
      · simp [BodyRef.view, (List.getElem?_eq_some_iff.mp h1).1, h2]
      · exact hn.1 (List.mem_map.mpr ⟨jb, hjb, h⟩)
    · have he' : b.1 ≠ j := hab.1 ▸ he
      simp only [dictGet, if_neg he] at hj
      obtain ⟨B, h1, h2, ⟨i, h3⟩, h4⟩ := ih hn.2 hj
      refine ⟨B, by simp only [dictGet, if_neg he', h1], h2, ⟨i, by simp [h3]⟩, fun s => ?_⟩
      simp only [dictSet, if_neg he']
      refine .cons ⟨hab.1, ?_⟩ (h4 s)
      rw [BodyRef.view_set, hab.2]
      exact fun h => hn.1 (List.mem_map.mpr ⟨_, h3, h.symm⟩)

theorem BodyRef.addGeom_inv (cdd : CddLib K) (inertias : List (PinInertia K)) (g : GeomObj K) {k : ℕ}
    {m : List (List (AnyShape K))} {bodies : List (ℕ × BodyRef K)} {vals : List (ℕ × RigidBody K)} (h : Inv k m bodies vals)
    (hk : k ≤ m.length) :
    (∃ bodies' vals' m', Prog.exec (addGeom cdd inertias bodies g) m = (.ok bodies', m') ∧
      Rigeo.addGeom cdd inertias vals g = .ok vals' ∧ Inv k m' bodies' vals' ∧ m.length ≤ m'.length ∧
      ∀ r < k, m'[r]? = m[r]?) ∨
    (∃ e, Prog.exec (addGeom cdd inertias bodies g) m = (.error e, m) ∧ Rigeo.addGeom cdd inertias vals g = .error e) := by
  unfold BodyRef.addGeom Rigeo.addGeom
  rw [Prog.exec_bind, Prog.exec_pure']
  cases listGet inertias g.parentJoint with
  | error e => exact .inr ⟨e, rfl, rfl⟩
  | ok x =>
    dsimp only
    rw [Prog.exec_bind, Prog.exec_pure']
    cases pinToShape cdd g with
    | error e => exact .inr ⟨e, rfl, rfl⟩
    | ok s =>
      dsimp only [bind, Except.bind]
      cases hj : dictGet bodies g.parentJoint with
      | some body =>
        obtain ⟨B, h1, h2, ⟨i, h3⟩, h4⟩ := BodyRef.dictGet_some h.view h.nodup _ body hj
        obtain ⟨h5, h6⟩ := BodyRef.view_eq h2
        left
        refine ⟨bodies, _, m.set body.shapes (B.shapes ++ [s]), ?_, by rw [h1]; rfl, ⟨h4 s, h.fresh, h.nodup⟩, by simp, fun r hr => ?_⟩
        · dsimp only
          change Prog.exec (Prog.read body.shapes >>= _) m = _
          rw [Prog.exec_bind, Prog.exec_read h5]
          rfl
        · rw [List.getElem?_set_ne]
          have := h.fresh _ h3
          dsimp only at this
          omega
      | none =>
        obtain ⟨h1, h2, h3⟩ := BodyRef.dictGet_none h.view _ hj
        rw [h1]
        dsimp only
        cases hx : x.params with
        | error e => exact .inr ⟨e, rfl, rfl⟩
        | ok p =>
          refine .inl ⟨_, _, m ++ [[s]], rfl, rfl, ?_, by simp, fun r hr => List.getElem?_append_left (by omega)⟩
          rw [h2, h3]
          have hm : ∀ jb ∈ bodies, jb.2.shapes < m.length := by
            intro jb hjb
            obtain ⟨i, hi, rfl⟩ := List.getElem_of_mem hjb
            have := (List.forall₂_iff_get.mp h.view).2 i hi (h.view.length_eq ▸ hi)
            exact (List.getElem?_eq_some_iff.mp (BodyRef.view_eq this.2).1).1
          refine ⟨?_, ?_, ?_⟩
          · refine List.rel_append (BodyRef.view_mono h.view fun jb hjb => ?_) (.cons ⟨rfl, ?_⟩ .nil)
            · unfold BodyRef.view
              rw [List.getElem?_append_left (hm jb hjb)]
            · simp [BodyRef.view]
          · intro jb hjb
            rcases List.mem_append.mp hjb with hjb | hjb
            · exact h.fresh jb hjb
            · rw [List.mem_singleton.mp hjb]
              exact hk
          · rw [List.map_append, List.nodup_append]
            refine ⟨h.nodup, by simp, ?_⟩
            rintro a ha b hb rfl
            obtain ⟨jb, hjb, rfl⟩ := List.mem_map.mp ha
            rw [List.map_cons, List.map_nil, List.mem_singleton] at hb
            exact (hm jb hjb).ne hb

theorem BodyRef.geomBodies_inv (cdd : CddLib K) (inertias : List (PinInertia K)) (geoms : List (GeomObj K)) {k : ℕ}
    {m : List (List (AnyShape K))} {bodies : List (ℕ × BodyRef K)} {vals : List (ℕ × RigidBody K)} (h : Inv k m bodies vals)
    (hk : k ≤ m.length) :
    ∃ m', (∀ r < k, m'[r]? = m[r]?) ∧
    ((∃ bodies' vals', Prog.exec (geoms.foldlM (addGeom cdd inertias) bodies) m = (.ok bodies', m') ∧
      geoms.foldlM (Rigeo.addGeom cdd inertias) vals = .ok vals' ∧ Inv k m' bodies' vals') ∨
    (∃ e, Prog.exec (geoms.foldlM (addGeom cdd inertias) bodies) m = (.error e, m') ∧
      geoms.foldlM (Rigeo.addGeom cdd inertias) vals = .error e)) := by
  induction geoms generalizing m bodies vals with
  | nil => exact ⟨m, fun _ _ => rfl, .inl ⟨bodies, vals, rfl, rfl, h⟩⟩
  | cons g l ih =>
    rw [List.foldlM_cons, List.foldlM_cons, Prog.exec_bind]
    rcases BodyRef.addGeom_inv cdd inertias g h hk with ⟨b', v', m', h1, h2, h3, h4, h5⟩ | ⟨e, h1, h2⟩
    · obtain ⟨m'', h6, h7⟩ := ih h3 (hk.trans h4)
      refine ⟨m'', fun r hr => (h6 r hr).trans (h5 r hr), ?_⟩
      rw [h1, h2]
      exact h7
    · rw [h1, h2]
      exact ⟨m, fun _ _ => rfl, .inr ⟨e, rfl, rfl⟩⟩

/-- C108: appending in place gives the bodies that the model with values gives (C82): each body has a list of its own, and
no list that existed before the call is changed, also when the call fails. -/
theorem C108_multibody (cdd : CddLib K) (inertias : List (PinInertia K)) (geoms : List (GeomObj K))
    (m : List (List (AnyShape K))) :
    ∃ r m', Prog.exec (BodyRef.geomBodies cdd inertias geoms) m = (r, m') ∧ Spec.Unchanged m m' ∧
      (∀ bodies, r = .ok bodies → (bodies.map fun jb => jb.2.shapes).Nodup ∧ ∀ jb ∈ bodies, m.length ≤ jb.2.shapes) ∧
      r.map (fun bodies => bodies.map fun jb => (jb.1, jb.2.view m')) =
        (geomBodies cdd inertias geoms).map fun bodies => bodies.map fun jb => (jb.1, some jb.2) := by
  obtain ⟨m', h1, h⟩ := BodyRef.geomBodies_inv cdd inertias geoms (k := m.length) (m := m) (bodies := []) (vals := [])
    ⟨.nil, by simp, by simp⟩ le_rfl
  rcases h with ⟨b, v, h2, h3, h4⟩ | ⟨e, h2, h3⟩
  · refine ⟨_, m', h2, h1, ?_, ?_⟩
    · rintro _ ⟨⟩
      exact ⟨h4.nodup, h4.fresh⟩
    · rw [geomBodies, h3]
      refine congrArg Except.ok ?_
      have := h4.view
      clear h2 h3 h4
      induction this with
      | nil => rfl
      | cons hab _ ih =>
        dsimp only at ih ⊢
        rw [List.map_cons, List.map_cons, ih, hab.1, hab.2]
  · refine ⟨_, m', h2, h1, by rintro _ ⟨⟩, ?_⟩
    rw [geomBodies, h3]
    rfl

/-! ### Gravity -/

/-- C108: `MultiBody(model, geom_model, gravity=g)` writes the gravity into the model it is given: every multibody made
before with the same model has the new gravity from then on, and multibodies with other models keep theirs. The new
multibody is what the model with values gives. -/
theorem C108_gravity (cdd : CddLib K) (m : List (PinModel K)) (r : ℕ) (x : PinModel K) (hr : m[r]? = some x)
    (tool : Option String) (a b c : K) (mb : MultiBody K) (hmb : MultiBody.init cdd x tool (some [a, b, c]) = .ok mb) :
    ∃ ref m', Prog.exec (MultiBodyRef.init cdd r tool (some [a, b, c])) m = (.ok ref, m') ∧ ref.view m' = some mb ∧
      mb.model.gravity = ![a, b, c] ∧
      ∀ old : MultiBodyRef K, ∀ v, old.view m = some v →
        (old.model = r → old.view m' = some { v with model := { v.model with gravity := ![a, b, c] } }) ∧
        (old.model ≠ r → old.view m' = some v) := by
  have hlt : r < m.length := (List.getElem?_eq_some_iff.mp hr).1
  unfold MultiBody.init at hmb
  cases ht : MultiBody.toolIndex x tool with
  | error e => rw [ht] at hmb; cases hmb
  | ok idx =>
    rw [ht] at hmb
    cases hb : geomBodies cdd x.inertias x.geoms with
    | error e =>
      simp only [bind, Except.bind, MultiBody.setGravity, hb] at hmb
      cases hmb
    | ok bodies =>
      simp only [bind, Except.bind, MultiBody.setGravity, hb] at hmb
      obtain rfl := Except.ok.inj hmb
      refine ⟨⟨r, idx, bodies⟩, m.set r { x with gravity := ![a, b, c] }, ?_, by simp [MultiBodyRef.view, hlt], rfl, ?_⟩
      · unfold MultiBodyRef.init
        rw [Prog.exec_bind, Prog.exec_read hr]
        dsimp only
        rw [Prog.exec_bind, Prog.exec_pure', ht]
        dsimp only
        rw [Prog.exec_bind, Prog.exec_pure']
        dsimp only [MultiBody.setGravity]
        rw [Prog.exec_bind, Prog.exec_write]
        dsimp only
        rw [Prog.exec_bind, Prog.exec_pure', hb]
        rfl
      · intro old v hv
        unfold MultiBodyRef.view at hv ⊢
        refine ⟨?_, fun h => by rw [List.getElem?_set_ne (Ne.symm h), hv]⟩
        rintro rfl
        rw [hr] at hv
        obtain rfl := Option.some.inj hv
        simp [hlt]

/-- C108: if a geometry is rejected the constructor has already changed the gravity of the model it was given. -/
theorem C108_gravity_failed (cdd : CddLib K) (m : List (PinModel K)) (r : ℕ) (x : PinModel K) (hr : m[r]? = some x)
    (tool : Option String) (ht : ∀ n ∈ tool, n ∈ x.frameNames) (a b c : K) (e : PyErr)
    (he : geomBodies cdd x.inertias x.geoms = .error e) :
    ∃ m', Prog.exec (MultiBodyRef.init cdd r tool (some [a, b, c])) m = (.error e, m') ∧
      m'[r]? = some { x with gravity := ![a, b, c] } := by
  have hlt : r < m.length := (List.getElem?_eq_some_iff.mp hr).1
  obtain ⟨idx, ht⟩ : ∃ idx, MultiBody.toolIndex x tool = .ok idx := by
    cases tool with
    | none => exact ⟨_, rfl⟩
    | some n => exact ⟨_, by unfold MultiBody.toolIndex MultiBody.nameIndex; dsimp only; rw [if_pos (ht n rfl)]; rfl⟩
  refine ⟨m.set r { x with gravity := ![a, b, c] }, ?_, by simp [hlt]⟩
  unfold MultiBodyRef.init
  rw [Prog.exec_bind, Prog.exec_read hr]
  dsimp only
  rw [Prog.exec_bind, Prog.exec_pure', ht]
  dsimp only
  rw [Prog.exec_bind, Prog.exec_pure']
  dsimp only [MultiBody.setGravity]
  rw [Prog.exec_bind, Prog.exec_write]
  dsimp only
  rw [Prog.exec_bind, Prog.exec_pure', he]

/-- C108: without a gravity, or with one that is rejected, or with an unknown tool, the models are left as they are. -/
theorem C108_gravity_none (cdd : CddLib K) (m : List (PinModel K)) (r : ℕ) (x : PinModel K) (hr : m[r]? = some x)
    (tool : Option String) (gravity : Option (List K))
    (h : gravity = none ∨ (∃ v, gravity = some v ∧ v.length ≠ 3) ∨ ∃ n, tool = some n ∧ n ∉ x.frameNames) :
    (Prog.exec (MultiBodyRef.init cdd r tool gravity) m).2 = m := by
  unfold MultiBodyRef.init
  rw [Prog.exec_bind, Prog.exec_read hr]
  dsimp only
  rw [Prog.exec_bind, Prog.exec_pure']
  cases ht : MultiBody.toolIndex x tool with
  | error e => rfl
  | ok idx =>
    have hn : ¬ ∃ n, tool = some n ∧ n ∉ x.frameNames := by
      rintro ⟨n, rfl, hn⟩
      unfold MultiBody.toolIndex MultiBody.nameIndex at ht
      dsimp only at ht
      rw [if_neg hn] at ht
      cases ht
    dsimp only
    rw [Prog.exec_bind, Prog.exec_pure']
    rcases h with rfl | ⟨v, rfl, hv⟩ | h
    · dsimp only [MultiBody.setGravity]
      obtain ⟨hlt, rfl⟩ := List.getElem?_eq_some_iff.mp hr
      rw [Prog.exec_bind, Prog.exec_write, List.set_getElem_self]
      dsimp only
      rw [Prog.exec_bind, Prog.exec_pure']
      cases geomBodies cdd m[r].inertias m[r].geoms <;> rfl
    · have : MultiBody.setGravity x (some v) = .error .assertion := by
        match v, hv with
        | [], _ => rfl
        | [_], _ => rfl
        | [_, _], _ => rfl
        | [_, _, _], hv => exact absurd rfl hv
        | _ :: _ :: _ :: _ :: _, _ => rfl
      rw [this]
    · exact absurd h hn

end Body

/-! ### Arrays -/

section Arrays
variable {K : Type} [Field K] [LinearOrder K]

theorem Array3.exec_readVec {m : List (Array3 K)} {r : ℕ} {v : Fin 3 → K} (h : m[r]? = some (.vec v)) :
    Prog.exec (Array3.readVec r) m = (.ok v, m) := by
  unfold Array3.readVec
  rw [Prog.exec_bind, Prog.exec_read h]
  rfl

theorem Array3.exec_readMat {m : List (Array3 K)} {r : ℕ} {M : Matrix (Fin 3) (Fin 3) K} (h : m[r]? = some (.mat M)) :
    Prog.exec (Array3.readMat r) m = (.ok M, m) := by
  unfold Array3.readMat
  rw [Prog.exec_bind, Prog.exec_read h]
  rfl

/-- C108: a box copies its arrays: the constructor changes none of the arrays that exist, and the box, which is what the
model with values gives, stays the same whatever happens to them afterwards. -/
theorem C108_box (m : List (Array3 K)) (h : ℕ) (c R : Option ℕ) (hv : Fin 3 → K) (hh : m[h]? = some (.vec hv))
    (hc : ∀ r, c = some r → ∃ v, m[r]? = some (.vec v)) (hR : ∀ r, R = some r → ∃ M, m[r]? = some (.mat M)) :
    ∃ r m', Prog.exec (BoxRef.init h c R) m = (r, m') ∧ Spec.Unchanged m m' ∧
      r.map (fun b => b.view m') = (Box.init hv (c.bind (Array3.vec? m)) (R.bind (Array3.mat? m))).map some ∧
      ∀ b, r = .ok b → ∀ m'', Spec.SameFrom m.length m' m'' → b.view m'' = b.view m' := by
  have hcopy : ∀ m1 : List (Array3 K), Spec.Unchanged m m1 → Prog.exec (Array3.copyMat 1 R) m1 =
      (.ok m1.length, m1 ++ [.mat ((R.bind (Array3.mat? m)).getD 1)]) := by
    intro m1 h1
    cases R with
    | none => rfl
    | some r =>
      obtain ⟨M, hM⟩ := hR r rfl
      unfold Array3.copyMat
      rw [Prog.exec_bind, Array3.exec_readMat (M := M) (by rw [h1 r (List.getElem?_eq_some_iff.mp hM).1, hM])]
      simp [Prog.exec_new, Array3.mat?, hM]
  have hcopy' : ∀ m1 : List (Array3 K), Spec.Unchanged m m1 → Prog.exec (Array3.copyVec 0 c) m1 =
      (.ok m1.length, m1 ++ [.vec ((c.bind (Array3.vec? m)).getD 0)]) := by
    intro m1 h1
    cases c with
    | none => rfl
    | some r =>
      obtain ⟨v, hv⟩ := hc r rfl
      unfold Array3.copyVec
      rw [Prog.exec_bind, Array3.exec_readVec (v := v) (by rw [h1 r (List.getElem?_eq_some_iff.mp hv).1, hv])]
      simp [Prog.exec_new, Array3.vec?, hv]
  unfold BoxRef.init Box.init
  rw [Prog.exec_bind, Array3.exec_readVec hh]
  dsimp only
  rw [Prog.exec_bind, Prog.exec_new]
  dsimp only
  rw [Prog.exec_bind, Prog.exec_pure']
  by_cases hp : ∀ i, 0 ≤ hv i
  · simp only [pyAssert, decide_eq_true hp, if_true]
    rw [Prog.exec_bind, hcopy _ (unchanged_append _ _)]
    dsimp only
    rw [Prog.exec_bind, hcopy' _ (by rw [List.append_assoc]; exact unchanged_append _ _)]
    dsimp only
    refine ⟨_, _, rfl, by rw [List.append_assoc, List.append_assoc]; exact unchanged_append _ _, ?_, ?_⟩
    · simp [Except.map, BoxRef.view, Array3.vec?, Array3.mat?, bind, Except.bind]
      rfl
    · rintro b ⟨⟩ m'' hm
      simp only [BoxRef.view, Array3.vec?, Array3.mat?]
      rw [hm _ le_rfl, hm _ (by simp), hm _ (by simp)]
  · simp only [pyAssert, decide_eq_false hp]
    exact ⟨_, _, rfl, unchanged_append _ _, rfl, by rintro b ⟨⟩⟩

/-- The center of mass chosen by `IP.init`. -/
def IP.comValue (mass : K) (h com : Option (Fin 3 → K)) : Py (Fin 3 → K) :=
  match com with
  | some c => pure c
  | none => match h with
    | none => pure 0
    | some h => vdiv h mass

/-- The second moments chosen by `IP.init`, before they are translated. -/
def IP.secondValue (mass : K) (c : Fin 3 → K) (t : Bool) (H I : Option (Matrix (Fin 3) (Fin 3) K)) : Matrix (Fin 3) (Fin 3) K :=
  match H with
  | some H => H
  | none => match I with
    | none => if t then 0 else mass • outer c c
    | some I => I2H I

theorem IP.init_bind (mass : K) (h com : Option (Fin 3 → K)) (H I : Option (Matrix (Fin 3) (Fin 3) K)) (t : Bool)
    (hm : 0 ≤ mass) (h1 : (h.isSome && com.isSome) = false) (h2 : (H.isSome && I.isSome) = false) :
    IP.init mass h com H I t = (IP.comValue mass h com).bind fun c =>
      .ok ⟨mass, c, if t then IP.secondValue mass c t H I + mass • outer c c else IP.secondValue mass c t H I⟩ := by
  unfold IP.init IP.comValue
  simp only [pyAssert, decide_eq_true hm, if_true, h1, h2, Bool.false_eq_true, if_false]
  cases com <;> cases h <;> rfl

/-- C108: inertial parameters keep the arrays `com` and, unless it is translated, `H` that they are given; the other arrays
are new. The constructor changes none of the arrays that exist and gives what the model with values gives. -/
theorem C108_params (m : List (Array3 K)) (mass : K) (h com H I : Option ℕ) (t : Bool)
    (hh : ∀ r, h = some r → ∃ v, m[r]? = some (.vec v)) (hc : ∀ r, com = some r → ∃ v, m[r]? = some (.vec v))
    (hH : ∀ r, H = some r → ∃ M, m[r]? = some (.mat M)) (hI : ∀ r, I = some r → ∃ M, m[r]? = some (.mat M)) :
    ∃ r m', Prog.exec (IPRef.init mass h com H I t) m = (r, m') ∧ Spec.Unchanged m m' ∧
      r.map (fun p => p.view m') = (IP.init mass (h.bind (Array3.vec? m)) (com.bind (Array3.vec? m))
        (H.bind (Array3.mat? m)) (I.bind (Array3.mat? m)) t).map some ∧
      ∀ p, r = .ok p → (∀ c, com = some c → p.com = c) ∧ (com = none → m.length ≤ p.com) ∧
        (∀ M, H = some M → t = false → p.H = M) ∧ (H = none ∨ t = true → m.length ≤ p.H) := by
  unfold IPRef.init
  rw [Prog.exec_bind, Prog.exec_pure']
  by_cases hm : 0 ≤ mass
  swap
  · unfold IP.init
    simp only [pyAssert, decide_eq_false hm]
    exact ⟨_, _, rfl, fun _ _ => rfl, rfl, by rintro p ⟨⟩⟩
  simp only [pyAssert, decide_eq_true hm, if_true]
  rw [Prog.exec_bind, Prog.exec_pure']
  have e1 : (h.bind (Array3.vec? m)).isSome = h.isSome := by
    cases h with
    | none => rfl
    | some r => obtain ⟨v, hv⟩ := hh r rfl; simp [Array3.vec?, hv]
  have e2 : (com.bind (Array3.vec? m)).isSome = com.isSome := by
    cases com with
    | none => rfl
    | some r => obtain ⟨v, hv⟩ := hc r rfl; simp [Array3.vec?, hv]
  have e3 : (H.bind (Array3.mat? m)).isSome = H.isSome := by
    cases H with
    | none => rfl
    | some r => obtain ⟨v, hv⟩ := hH r rfl; simp [Array3.mat?, hv]
  have e4 : (I.bind (Array3.mat? m)).isSome = I.isSome := by
    cases I with
    | none => rfl
    | some r => obtain ⟨v, hv⟩ := hI r rfl; simp [Array3.mat?, hv]
  cases hb : h.isSome && com.isSome
  swap
  · refine ⟨_, _, rfl, fun _ _ => rfl, ?_, by rintro p ⟨⟩⟩
    unfold IP.init
    simp only [pyAssert, decide_eq_true hm, if_true, e1, e2, hb]
    rfl
  simp only [Bool.false_eq_true, if_false]
  -- the center of mass
  have hcom : (∃ r v m1, Prog.exec (IPRef.comArray mass h com) m = (.ok r, m1) ∧ m1[r]? = some (.vec v) ∧
      Spec.Unchanged m m1 ∧ m.length ≤ m1.length ∧ (∀ c, com = some c → r = c) ∧ (com = none → m.length ≤ r) ∧
      IP.comValue mass (h.bind (Array3.vec? m)) (com.bind (Array3.vec? m)) = .ok v) ∨
      (∃ e, Prog.exec (IPRef.comArray mass h com) m = (.error e, m) ∧
      IP.comValue mass (h.bind (Array3.vec? m)) (com.bind (Array3.vec? m)) = .error e) := by
    cases com with
    | some c =>
      obtain ⟨v, hv⟩ := hc c rfl
      exact .inl ⟨c, v, m, by cases h <;> rfl, hv, fun _ _ => rfl, le_rfl, by rintro _ ⟨⟩; rfl, by rintro ⟨⟩,
        by simp [IP.comValue, Array3.vec?, hv]; rfl⟩
    | none =>
      cases h with
      | none => exact .inl ⟨_, 0, _, rfl, by simp, unchanged_append _ _, by simp, by rintro _ ⟨⟩, fun _ => le_rfl, rfl⟩
      | some r =>
        obtain ⟨v, hv⟩ := hh r rfl
        have hx : (Option.bind (some r) (Array3.vec? m)) = some v := by simp [Array3.vec?, hv]
        rw [hx]
        dsimp only [Option.bind]
        unfold IPRef.comArray IP.comValue
        rw [Prog.exec_bind, Array3.exec_readVec hv]
        dsimp only
        rw [Prog.exec_bind, Prog.exec_pure']
        cases vdiv v mass with
        | error e => exact .inr ⟨e, rfl, rfl⟩
        | ok c =>
          exact .inl ⟨_, c, _, rfl, by simp, unchanged_append _ _, by simp, by rintro _ ⟨⟩, fun _ => le_rfl, rfl⟩
  rw [Prog.exec_bind, Prog.exec_pure']
  cases hb' : H.isSome && I.isSome
  swap
  · refine ⟨_, _, rfl, fun _ _ => rfl, ?_, by rintro p ⟨⟩⟩
    unfold IP.init
    simp only [pyAssert, decide_eq_true hm, if_true, e1, e2, e3, e4, hb, hb']
    rfl
  simp only [Bool.false_eq_true, if_false]
  rw [Prog.exec_bind]
  rcases hcom with ⟨rc, v, m1, h1, h2, h3, h4, h5, h6, h7⟩ | ⟨e, h1, h7⟩
  swap
  · rw [h1]
    refine ⟨_, _, rfl, fun _ _ => rfl, ?_, by rintro p ⟨⟩⟩
    rw [IP.init_bind _ _ _ _ _ _ hm (by rw [e1, e2, hb]) (by rw [e3, e4, hb']), h7]
    rfl
  rw [IP.init_bind _ _ _ _ _ _ hm (by rw [e1, e2, hb]) (by rw [e3, e4, hb']), h7, h1]
  dsimp only
  rw [Prog.exec_bind, Array3.exec_readVec h2]
  dsimp only
  -- the second moments
  obtain ⟨rH, M, m2, g1, g2, g3, g4, g5, g6, g7⟩ : ∃ r M m2, Prog.exec (IPRef.secondArray mass v t H I) m1 = (.ok r, m2) ∧
      m2[r]? = some (.mat M) ∧ Spec.Unchanged m1 m2 ∧ m1.length ≤ m2.length ∧ (∀ c, H = some c → r = c) ∧
      (H = none → m.length ≤ r) ∧
      IP.secondValue mass v t (H.bind (Array3.mat? m)) (I.bind (Array3.mat? m)) = M := by
    cases H with
    | some r =>
      obtain ⟨M, hM⟩ := hH r rfl
      exact ⟨r, M, m1, rfl, by rw [h3 r (List.getElem?_eq_some_iff.mp hM).1, hM], fun _ _ => rfl, le_rfl,
        by rintro _ ⟨⟩; rfl, by rintro ⟨⟩, by simp [IP.secondValue, Array3.mat?, hM]⟩
    | none =>
      cases I with
      | none =>
        cases t with
        | true => exact ⟨_, 0, _, rfl, by simp, unchanged_append _ _, by simp, by rintro _ ⟨⟩, fun _ => h4, rfl⟩
        | false => exact ⟨_, mass • outer v v, _, rfl, by simp, unchanged_append _ _, by simp, by rintro _ ⟨⟩, fun _ => h4, rfl⟩
      | some r =>
        obtain ⟨M, hM⟩ := hI r rfl
        refine ⟨m1.length, I2H M, m1 ++ [.mat (I2H M)], ?_, by simp, unchanged_append _ _, by simp, by rintro _ ⟨⟩,
          fun _ => h4, by simp [IP.secondValue, Array3.mat?, hM]⟩
        unfold IPRef.secondArray
        rw [Prog.exec_bind, Array3.exec_readMat (M := M) (by rw [h3 r (List.getElem?_eq_some_iff.mp hM).1, hM])]
        rfl
  rw [Prog.exec_bind, g1]
  dsimp only
  have hm2 : m2[rc]? = some (.vec v) := by rw [g3 _ (List.getElem?_eq_some_iff.mp h2).1, h2]
  have hu : Spec.Unchanged m m2 := fun r hr => (g3 r (hr.trans_le h4)).trans (h3 r hr)
  dsimp only [Except.bind]
  rw [g7]
  cases t with
  | false =>
    refine ⟨_, _, rfl, hu, ?_, ?_⟩
    · refine congrArg Except.ok ?_
      simp [IPRef.view, Array3.vec?, Array3.mat?, hm2, g2]
    · rintro p ⟨⟩
      exact ⟨h5, h6, fun M hM _ => g5 M hM, fun h => g6 (by simpa using h)⟩
  | true =>
    unfold IPRef.translated
    rw [Prog.exec_bind, Prog.exec_bind, Array3.exec_readMat g2]
    refine ⟨_, _, rfl, fun r hr => ?_, ?_, ?_⟩
    · exact (unchanged_append m2 _ r (by omega)).trans (hu r hr)
    · refine congrArg Except.ok ?_
      simp [IPRef.view, Array3.vec?, Array3.mat?, List.getElem?_append_left (List.getElem?_eq_some_iff.mp hm2).1, hm2]
    · rintro p ⟨⟩
      exact ⟨h5, h6, fun M hM h => by simp at h, fun _ => h4.trans g4⟩

/-- C108: so a later change of the array passed as `com` changes the center of mass of the body, and not its second moments. -/
theorem C108_params_shared (m : List (Array3 K)) (mass : K) (hm : 0 ≤ mass) (c M : ℕ) (v v' : Fin 3 → K)
    (A : Matrix (Fin 3) (Fin 3) K) (hc : m[c]? = some (.vec v)) (hM : m[M]? = some (.mat A)) :
    ∃ p : IPRef K, Prog.exec (IPRef.init mass (com := some c) (H := some M)) m = (.ok p, m) ∧
      p.view m = some ⟨mass, v, A⟩ ∧ p.view (m.set c (.vec v')) = some ⟨mass, v', A⟩ := by
  have hlt := (List.getElem?_eq_some_iff.mp hc).1
  refine ⟨⟨mass, c, M⟩, ?_, by simp [IPRef.view, Array3.vec?, Array3.mat?, hc, hM], ?_⟩
  · unfold IPRef.init
    rw [Prog.exec_bind, Prog.exec_pure']
    simp only [pyAssert, decide_eq_true hm, if_true]
    rw [Prog.exec_bind, Prog.exec_pure']
    simp only [Option.isSome_none, Bool.false_and, Bool.and_false, Bool.false_eq_true, if_false]
    rw [Prog.exec_bind, Prog.exec_pure']
    dsimp only
    rw [Prog.exec_bind, show Prog.exec (IPRef.comArray mass none (some c)) m = (.ok c, m) from rfl]
    dsimp only
    rw [Prog.exec_bind, Array3.exec_readVec hc]
    rfl
  · have hne : c ≠ M := by
      rintro rfl
      rw [hc] at hM
      cases hM
    simp [IPRef.view, Array3.vec?, Array3.mat?, hlt, List.getElem?_set_ne hne, hM]

end Arrays
end Rigeo
