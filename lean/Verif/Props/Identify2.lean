import Verif.Props.Identify
import Verif.Props.RigidBody
import Verif.Props.Closest
import Verif.Props.Moment3
import Verif.Props.Body

/-!
# C79, C80: solving the parameter identification problem
-/

namespace Rigeo

open Matrix

theorem holds_ok {c : Prop} : Py.Holds (.ok c) ↔ c :=
  ⟨fun ⟨_, h, hq⟩ => (Except.ok.inj h) ▸ hq, fun h => ⟨c, rfl, h⟩⟩

/-- Constraints collected from the elements of a list. -/
theorem holds_mapM {α : Type} {f : α → Py Prop} {l : List α} :
    (∃ bs, l.mapM f = .ok bs ∧ ∀ c ∈ bs, c) ↔ ∀ a ∈ l, Py.Holds (f a) := by
  induction l with
  | nil => exact ⟨fun _ => by simp, fun _ => ⟨[], rfl, by simp⟩⟩
  | cons a l ih =>
    rw [List.mapM_cons]
    constructor
    · rintro ⟨bs, h, hb⟩
      cases hf : f a with
      | error e => rw [hf] at h; cases h
      | ok c =>
        rw [hf] at h
        cases hl : l.mapM f with
        | error e => rw [hl] at h; cases h
        | ok cs =>
          rw [hl] at h
          obtain rfl : c :: cs = bs := Except.ok.inj h
          intro x hx
          rcases List.mem_cons.mp hx with rfl | hx
          · rw [hf]; exact holds_ok.mpr (hb c (by simp))
          · exact ih.mp ⟨cs, hl, fun c hc => hb c (List.mem_cons_of_mem _ hc)⟩ x hx
    · intro h
      obtain ⟨c, hc, hc'⟩ := h a (by simp)
      obtain ⟨cs, hcs, hcs'⟩ := ih.mpr fun x hx => h x (List.mem_cons_of_mem _ hx)
      refine ⟨c :: cs, by rw [hc, hcs]; rfl, fun x hx => ?_⟩
      rcases List.mem_cons.mp hx with rfl | hx
      · exact hc'
      · exact hcs' x hx

theorem holds_bind3 {x y z : Py (List Prop)} {Q : Prop} :
    Py.Holds (do let a ← x; let b ← y; let c ← z; pure ((∀ p ∈ a, p) ∧ (∀ p ∈ b, p) ∧ (∀ p ∈ c, p) ∧ Q)) ↔
      (∃ a, x = .ok a ∧ ∀ p ∈ a, p) ∧ (∃ b, y = .ok b ∧ ∀ p ∈ b, p) ∧ (∃ c, z = .ok c ∧ ∀ p ∈ c, p) ∧ Q := by
  constructor
  · rintro ⟨q, h, hq⟩
    cases x with
    | error e => cases h
    | ok a =>
      cases y with
      | error e => cases h
      | ok b =>
        cases z with
        | error e => cases h
        | ok c =>
          have h' : ((∀ p ∈ a, p) ∧ (∀ p ∈ b, p) ∧ (∀ p ∈ c, p) ∧ Q) = q := Except.ok.inj h
          rw [← h'] at hq
          exact ⟨⟨a, rfl, hq.1⟩, ⟨b, rfl, hq.2.1⟩, ⟨c, rfl, hq.2.2.1⟩, hq.2.2.2⟩
  · rintro ⟨⟨a, rfl, ha⟩, ⟨b, rfl, hb⟩, ⟨c, rfl, hc⟩, hQ⟩
    exact ⟨_, rfl, ha, hb, hc, hQ⟩

theorem mapM_ok_iff {α β : Type} {f : α → Py β} {l : List α} : (∃ bs, l.mapM f = .ok bs) ↔ ∀ a ∈ l, ∃ b, f a = .ok b := by
  constructor
  · rintro ⟨bs, h⟩ a ha
    obtain ⟨b, _, hb⟩ := mapM_ok_mem h a ha
    exact ⟨b, hb⟩
  · intro h
    obtain ⟨bs, hbs, _⟩ := mapM_ok_of_forall f l h
    exact ⟨bs, hbs⟩

theorem mapM_error {α β : Type} {e : PyErr} (f : α → Py β) (l : List α)
    (h : ∀ a ∈ l, (∃ b, f a = .ok b) ∨ f a = .error e) (he : ∃ a ∈ l, f a = .error e) : l.mapM f = .error e := by
  induction l with
  | nil => obtain ⟨a, ha, -⟩ := he; simp at ha
  | cons a l ih =>
    rw [List.mapM_cons]
    rcases h a (by simp) with ⟨b, hb⟩ | hb
    · obtain ⟨x, hx, hxe⟩ := he
      have hxl : x ∈ l := by
        rcases List.mem_cons.mp hx with rfl | h
        · rw [hb] at hxe; cases hxe
        · exact h
      rw [hb, ih (fun y hy => h y (List.mem_cons_of_mem _ hy)) ⟨x, hxl, hxe⟩]
      rfl
    · rw [hb]; rfl

theorem mustContainScaled_iff {s : AnyShape ℝ} (hs : s.Valid) (p : Fin 3 → ℝ) (m : ℝ) (hm : 0 < m) :
    Py.Holds (s.mustContainScaled (m • p) m) ↔ p ∈ Spec.region s := by
  have e : m⁻¹ • m • p = p := by rw [smul_smul, inv_mul_cancel₀ hm.ne', one_smul]
  cases s with
  | ellipsoid x => exact (holds_ok.trans (C29_mustContain x hs.1 _ m hm)).trans (by rw [e]; rfl)
  | box x => exact (holds_ok.trans (C30_box x hs.1 _ m hm)).trans (by rw [e]; rfl)
  | poly x =>
    refine (holds_ok (c := ∀ ab ∈ x.faceForm.faces, ab.1 ⬝ᵥ (m • p) ≤ m * ab.2)).trans ?_
    refine forall₂_congr fun ab _ => ?_
    rw [dotProduct_smul, smul_eq_mul, mul_le_mul_iff_right₀ hm]
  | cylinder x => exact (holds_ok.trans (C30_cylinder x hs.1 hs.2.1 hs.2.2 _ m hm)).trans (by rw [e]; rfl)
  | capsule x => exact (C30_capsule x hs.1 hs.2.1 hs.2.2 _ m hm).trans (by rw [e]; rfl)

theorem mustContainScaled_ok {s : AnyShape ℝ} (hs : s.Valid) (p : Fin 3 → ℝ) (m : ℝ) :
    ∃ c, s.mustContainScaled p m = .ok c := by
  cases s with
  | capsule c =>
    show ∃ x, c.mustContain p m = .ok x
    unfold Capsule.mustContain
    rw [c.caps_ok hs.2.2]
    exact ⟨_, rfl⟩
  | _ => exact ⟨_, rfl⟩

namespace IdentificationProblem
variable {n no k : ℕ}

/-- The matrices of the variables. -/
noncomputable abbrev Js (θs : Fin n → Fin 10 → ℝ) (i : Fin n) : Matrix (Fin 4) (Fin 4) ℝ := pimMustEqualVec (θs i)

theorem cost_eq (P : IdentificationProblem n no k) (bodies : Fin n → RigidBody ℝ) (hno : no ≠ 0) (hn : n ≠ 0)
    (hγ : 0 ≤ P.γ) (h0 : 0 < P.γ → ∀ i, (bodies i).params.J.det ≠ 0) (θs : Fin n → Fin 10 → ℝ) :
    P.cost bodies θs = .ok (Spec.identCost P.As P.bs (P.W0.getD 1) P.γ (fun i => (bodies i).params.J) θs (Js θs)) := by
  unfold cost Spec.identCost
  rw [C78_value θs P.As P.bs P.W0 hno hn]
  show (if 0 < P.γ then _ else _) = _
  rcases hγ.eq_or_lt with h | h
  · rw [if_neg (by rw [← h]; exact lt_irrefl 0), ← h]
    show Except.ok _ = _
    rw [zero_mul, add_zero]
  · rw [if_pos h]
    have hne : (List.ofFn fun i => pimMustEqualVec (θs i)) ≠ [] := by
      intro h
      have := congrArg List.length h
      simp at this
      exact hn this
    dsimp only
    rw [C77_divergence _ _ (by simp) hne (by
      intro J0 hJ0
      obtain ⟨i, rfl⟩ := List.mem_ofFn.mp hJ0
      exact h0 h i)]
    show Except.ok _ = _
    congr 3
    have e1 : ∀ f g : Fin n → Matrix (Fin 4) (Fin 4) ℝ, ((List.ofFn f).zip (List.ofFn g)) = List.ofFn fun i => (f i, g i) := by
      intro f g
      apply List.ext_getElem
      · simp
      · intro i h1 h2; simp
    rw [e1, List.map_ofFn, List.map_ofFn, List.sum_ofFn, List.sum_ofFn, ← Finset.sum_add_distrib]
    rfl

theorem constraints_holds (P : IdentificationProblem n no k) (bodies : Fin n → RigidBody ℝ) (mustRealize : Bool)
    (com : Option (List (AnyShape ℝ))) (hlen : ∀ shapes, com = some shapes → shapes.length = n)
    (θs : Fin n → Fin 10 → ℝ) :
    Py.Holds (P.constraints bodies mustRealize com θs) ↔
      (∀ i, Py.Holds (pimPsd (Js θs i) P.ε)) ∧
      (mustRealize = true → ∀ i, Py.Holds ((bodies i).momentSdpConstraints (.mat (Js θs i)))) ∧
      (∀ shapes, com = some shapes → ∀ (i : Fin n) (h : (i : ℕ) < shapes.length), Py.Holds (comConstraint shapes[(i : ℕ)] (Js θs i))) ∧
      (0 < P.γ → ∀ i, cvxPsd (Js θs i) ∧ 0 < (Js θs i).det) := by
  unfold constraints
  dsimp only
  rw [holds_bind3]
  unfold realizabilityConstraints comConstraints
  refine and_congr ?_ (and_congr ?_ (and_congr ?_ ?_))
  · rw [holds_mapM]
    constructor
    · intro h i; exact h _ (List.mem_ofFn.mpr ⟨i, rfl⟩)
    · intro h J hJ
      obtain ⟨i, rfl⟩ := List.mem_ofFn.mp hJ
      exact h i
  · cases mustRealize with
    | false => simp [pure, Except.pure]
    | true =>
      simp only [if_true, true_imp_iff]
      rw [holds_mapM]
      constructor
      · intro h i
        refine h ((bodies i), pimMustEqualVec (θs i)) ?_
        rw [List.mem_iff_getElem]
        exact ⟨i, by simp, by simp⟩
      · intro h bJ hbJ
        obtain ⟨i, hi, rfl⟩ := List.mem_iff_getElem.mp hbJ
        have hi' : i < n := by simpa using hi
        simpa using h ⟨i, hi'⟩
  · cases com with
    | none => simp [pure, Except.pure]
    | some shapes =>
      simp only
      rw [holds_mapM]
      constructor
      · intro h shapes' hs i hi
        obtain rfl := Option.some.inj hs
        refine h (shapes[(i : ℕ)], pimMustEqualVec (θs i)) ?_
        rw [List.mem_iff_getElem]
        exact ⟨i, by simpa using hi, by simp⟩
      · intro h sJ hsJ
        obtain ⟨i, hi, rfl⟩ := List.mem_iff_getElem.mp hsJ
        have hi' : i < shapes.length ∧ i < n := by simpa using hi
        simpa using h shapes rfl ⟨i, hi'.2⟩ hi'.1
  · refine imp_congr_right fun _ => ?_
    constructor
    · intro h i; exact h _ (List.mem_ofFn.mpr ⟨i, rfl⟩)
    · intro h J hJ
      obtain ⟨i, rfl⟩ := List.mem_ofFn.mp hJ
      exact h i

theorem pimPsd_holds {J : Matrix (Fin 4) (Fin 4) ℝ} {eps : ℝ} (heps : 0 ≤ eps) :
    Py.Holds (pimPsd J eps) ↔ Spec.PSD (J - eps • (1 : Matrix (Fin 4) (Fin 4) ℝ)) := by
  rw [pimPsd, if_pos heps, holds_ok]
  refine and_congr ?_ Iff.rfl
  rw [transpose_sub, transpose_smul, transpose_one, sub_left_inj]
  exact eq_comm

/-- The objective handed to the solver. -/
noncomputable def objective (P : IdentificationProblem n no k) (bodies : Fin n → RigidBody ℝ) :
    (Fin n → Fin 10 → ℝ) → ℝ := fun θs => (P.cost bodies θs).toOption.getD 0

theorem solve_ok {solver : ((Fin n → Fin 10 → ℝ) → ℝ) → ((Fin n → Fin 10 → ℝ) → Prop) → Option (Fin n → Fin 10 → ℝ)}
    {P : IdentificationProblem n no k} {bodies : Fin n → RigidBody ℝ} {mustRealize : Bool}
    {com : Option (List (AnyShape ℝ))} {res : IdentificationResult}
    (h : P.solve solver bodies mustRealize com = .ok res) :
    (∀ shapes, com = some shapes → shapes.length = n) ∧ (∃ c, P.cost bodies 0 = .ok c) ∧
      ∃ θs, solver (P.objective bodies) (fun θs => Py.Holds (P.constraints bodies mustRealize com θs)) = some θs ∧
        (List.ofFn θs).mapM IP.fromVec = .ok res.params ∧ res.objective = P.objective bodies θs := by
  unfold solve at h
  have hlen : ∀ shapes, com = some shapes → shapes.length = n := by
    rintro shapes rfl
    by_contra hne
    have : (shapes.length == n) = false := by simpa using hne
    simp only [this] at h
    cases h
  have h' : (do
      let _ ← P.cost bodies 0
      let _ ← P.constraints bodies mustRealize com 0
      match solver (P.objective bodies) fun θs => Py.Holds (P.constraints bodies mustRealize com θs) with
      | none => throw PyErr.assertion
      | some θs => do
        let params ← (List.ofFn θs).mapM IP.fromVec
        pure ({ params := params, objective := P.objective bodies θs } : IdentificationResult)) = Except.ok res := by
    cases com with
    | none => exact h
    | some shapes =>
      have : (shapes.length == n) = true := by simpa using hlen shapes rfl
      simp only [this] at h
      exact h
  refine ⟨hlen, ?_⟩
  cases hc : P.cost bodies 0 with
  | error e => rw [hc] at h'; cases h'
  | ok c =>
    rw [hc] at h'
    cases hk : P.constraints bodies mustRealize com 0 with
    | error e => rw [hk] at h'; cases h'
    | ok q =>
      rw [hk] at h'
      refine ⟨⟨c, rfl⟩, ?_⟩
      cases hs : solver (P.objective bodies) (fun θs => Py.Holds (P.constraints bodies mustRealize com θs)) with
      | none => rw [hs] at h'; cases h'
      | some θs =>
        rw [hs] at h'
        refine ⟨θs, rfl, ?_⟩
        cases hm : (List.ofFn θs).mapM IP.fromVec with
        | error e => 
          have h2 : ((List.ofFn θs).mapM IP.fromVec >>= fun params =>
            pure ({ params := params, objective := P.objective bodies θs } : IdentificationResult)) = Except.ok res := h'
          rw [hm] at h2; cases h2
        | ok ps =>
          have h2 : ((List.ofFn θs).mapM IP.fromVec >>= fun params =>
            pure ({ params := params, objective := P.objective bodies θs } : IdentificationResult)) = Except.ok res := h'
          rw [hm] at h2
          have h3 : (⟨ps, P.objective bodies θs⟩ : IdentificationResult) = res := Except.ok.inj h2
          rw [← h3]
          exact ⟨rfl, rfl⟩

theorem solve_eq {solver : ((Fin n → Fin 10 → ℝ) → ℝ) → ((Fin n → Fin 10 → ℝ) → Prop) → Option (Fin n → Fin 10 → ℝ)}
    {P : IdentificationProblem n no k} {bodies : Fin n → RigidBody ℝ} {mustRealize : Bool}
    {com : Option (List (AnyShape ℝ))} (hlen : ∀ shapes, com = some shapes → shapes.length = n)
    (hc : ∃ c, P.cost bodies 0 = .ok c) (hk : ∃ c, P.constraints bodies mustRealize com 0 = .ok c) :
    P.solve solver bodies mustRealize com =
      match solver (P.objective bodies) (fun θs => Py.Holds (P.constraints bodies mustRealize com θs)) with
      | none => .error .assertion
      | some θs => ((List.ofFn θs).mapM IP.fromVec).map fun ps => ⟨ps, P.objective bodies θs⟩ := by
  obtain ⟨c, hc⟩ := hc
  obtain ⟨q, hk⟩ := hk
  have h1 : P.solve solver bodies mustRealize com = (do
      let _ ← P.cost bodies 0
      let _ ← P.constraints bodies mustRealize com 0
      match solver (P.objective bodies) fun θs => Py.Holds (P.constraints bodies mustRealize com θs) with
      | none => throw PyErr.assertion
      | some θs => do
        let params ← (List.ofFn θs).mapM IP.fromVec
        pure ({ params := params, objective := P.objective bodies θs } : IdentificationResult)) := by
    unfold solve
    cases com with
    | none => rfl
    | some shapes =>
      have : (shapes.length == n) = true := by simpa using hlen shapes rfl
      simp only [this]
      rfl
  rw [h1, hc, hk]
  show (match solver (P.objective bodies) fun θs => Py.Holds (P.constraints bodies mustRealize com θs) with
      | none => throw PyErr.assertion
      | some θs => do
        let params ← (List.ofFn θs).mapM IP.fromVec
        pure ({ params := params, objective := P.objective bodies θs } : IdentificationResult)) = _
  cases solver (P.objective bodies) (fun θs => Py.Holds (P.constraints bodies mustRealize com θs)) with
  | none => rfl
  | some θs =>
    show ((List.ofFn θs).mapM IP.fromVec >>= fun params =>
            pure ({ params := params, objective := P.objective bodies θs } : IdentificationResult)) =
          ((List.ofFn θs).mapM IP.fromVec).map fun ps => ⟨ps, P.objective bodies θs⟩
    cases (List.ofFn θs).mapM IP.fromVec <;> rfl

end IdentificationProblem

/-! ## Parameter vectors -/

theorem fromVec_ok {θ : Fin 10 → ℝ} {p : IP ℝ} (h : IP.fromVec θ = .ok p) :
    0 < p.mass ∧ p.Hᵀ = p.H ∧ p.vec = θ ∧ p.J = pimMustEqualVec θ := by
  rcases lt_trichotomy (θ 0) 0 with h0 | h0 | h0
  · unfold IP.fromVec IP.init at h
    rw [show decide (0 ≤ θ 0) = false by simpa using h0] at h
    cases h
  · unfold IP.fromVec IP.init at h
    rw [h0] at h
    simp [pyAssert, vdiv, bind, Except.bind] at h
  · obtain ⟨q, hq, hq'⟩ : ∃ q : IP ℝ, q.vec = θ ∧ 0 < q.mass ∧ q.Hᵀ = q.H := by
      set M : Matrix (Fin 3) (Fin 3) ℝ := !![θ 4, θ 5, θ 6; θ 5, θ 7, θ 8; θ 6, θ 8, θ 9] with hM
      refine ⟨⟨θ 0, (θ 0)⁻¹ • ![θ 1, θ 2, θ 3], I2H M⟩, ?_, h0, ?_⟩
      · have e : IP.I (⟨θ 0, (θ 0)⁻¹ • ![θ 1, θ 2, θ 3], I2H M⟩ : IP ℝ) = M := (C09_inverse M).2
        have e2 : IP.h (⟨θ 0, (θ 0)⁻¹ • ![θ 1, θ 2, θ 3], I2H M⟩ : IP ℝ) = ![θ 1, θ 2, θ 3] := by
          rw [IP.h]; dsimp only; rw [smul_smul, mul_inv_cancel₀ h0.ne', one_smul]
        unfold IP.vec
        rw [e, e2]
        ext i
        fin_cases i <;> rfl
      · have hs : Mᵀ = M := by ext i j; fin_cases i <;> fin_cases j <;> rfl
        show (I2H M)ᵀ = I2H M
        simp [I2H, hs]
    have h1 := C10_fromVec_vec q hq'.1 hq'.2
    rw [hq, h] at h1
    obtain rfl := Except.ok.inj h1
    exact ⟨hq'.1, hq'.2, hq, by rw [← hq, C12_pim_of_vec _ hq'.2]⟩

theorem fromVec_zero {θ : Fin 10 → ℝ} (h0 : θ 0 = 0) : IP.fromVec θ = .error .nonfinite := by
  unfold IP.fromVec IP.init
  rw [h0]
  simp [pyAssert, vdiv, bind, Except.bind]

theorem mapM_ofFn_ok {α β : Type} {n : ℕ} {f : α → Py β} {x : Fin n → α} {bs : List β}
    (h : (List.ofFn x).mapM f = .ok bs) : ∃ y : Fin n → β, bs = List.ofFn y ∧ ∀ i, f (x i) = .ok (y i) := by
  obtain ⟨bs', hbs', h2⟩ := mapM_forall₂ (P := fun a b => f a = .ok b) (List.ofFn x)
    fun a ha => (mapM_ok_iff.mp ⟨bs, h⟩ a ha).imp fun b hb => ⟨hb, hb⟩
  obtain rfl : bs' = bs := Except.ok.inj (hbs'.symm.trans h)
  have hl : bs'.length = n := by rw [← h2.length_eq, List.length_ofFn]
  subst hl
  refine ⟨fun i => bs'[i], ?_, fun i => ?_⟩
  · apply List.ext_getElem
    · simp
    · intro i h1 h2; simp
  · have := (List.forall₂_iff_get.mp h2).2 i (by simp) i.2
    simpa using this

theorem mapM_ofFn {α β : Type} {n : ℕ} {f : α → Py β} {x : Fin n → α} {y : Fin n → β} (h : ∀ i, f (x i) = .ok (y i)) :
    (List.ofFn x).mapM f = .ok (List.ofFn y) := by
  obtain ⟨bs, hbs⟩ := (mapM_ok_iff (f := f) (l := List.ofFn x)).mpr (by
    intro a ha
    obtain ⟨i, rfl⟩ := List.mem_ofFn.mp ha
    exact ⟨_, h i⟩)
  obtain ⟨y', rfl, hy'⟩ := mapM_ofFn_ok hbs
  have : y' = y := funext fun i => Except.ok.inj ((hy' i).symm.trans (h i))
  rw [hbs, this]

namespace IdentificationProblem
variable {n no k : ℕ}

theorem Js_zero (i : Fin n) : Js (0 : Fin n → Fin 10 → ℝ) i = 0 := by
  have hh : (⟨0, 0, 0⟩ : IP ℝ).h = 0 := by simp [IP.h]
  have hI : (⟨0, 0, 0⟩ : IP ℝ).I = 0 := by simp [IP.I, H2I]
  have hv : (⟨0, 0, 0⟩ : IP ℝ).vec = 0 := by
    unfold IP.vec; rw [hh, hI]; ext a; fin_cases a <;> rfl
  have hJ : (⟨0, 0, 0⟩ : IP ℝ).J = 0 := by simp only [IP.J, hh, bordered_zero]
  rw [← hJ, ← C12_pim_of_vec _ (by simp), hv]
  rfl

theorem constraints_ok (P : IdentificationProblem n no k) (hε : 0 ≤ P.ε) (bodies : Fin n → RigidBody ℝ)
    (mustRealize : Bool) (hs : mustRealize = true → ∀ i, ∀ s ∈ (bodies i).shapes, s.Usable)
    (com : Option (List (AnyShape ℝ))) (hcom : ∀ shapes, com = some shapes → ∀ s ∈ shapes, s.Valid) :
    ∃ c, P.constraints bodies mustRealize com 0 = .ok c := by
  unfold constraints
  obtain ⟨psd, h1⟩ := (mapM_ok_iff (f := fun J => pimPsd J P.ε)
    (l := List.ofFn fun i => pimMustEqualVec ((0 : Fin n → Fin 10 → ℝ) i))).mpr (by
      intro J _; unfold pimPsd; rw [if_pos hε]; exact ⟨_, rfl⟩)
  have h2 : ∃ real, realizabilityConstraints bodies mustRealize
      (List.ofFn fun i => pimMustEqualVec ((0 : Fin n → Fin 10 → ℝ) i)) = .ok real := by
    unfold realizabilityConstraints
    cases mustRealize with
    | false => exact ⟨_, rfl⟩
    | true =>
      rw [if_pos rfl]
      refine mapM_ok_iff.mpr fun bJ hbJ => ?_
      obtain ⟨i, hi, rfl⟩ := List.mem_iff_getElem.mp hbJ
      have hi' : i < n := by simpa using hi
      have hh : (⟨0, 0, 0⟩ : IP ℝ).h = 0 := by simp [IP.h]
      have hJ : (⟨0, 0, 0⟩ : IP ℝ).J = 0 := by simp only [IP.J, hh, bordered_zero]
      obtain ⟨⟨c, hc, -⟩, -⟩ := C56_necessary (bodies ⟨i, hi'⟩) (hs rfl _) ⟨0, 0, 0⟩ (by rw [hh]; exact .zero _) 0
        le_rfl (by rw [hJ]; simpa using Spec.PSD.zero) 2 (by norm_num)
      rw [hJ] at hc
      refine ⟨c, ?_⟩
      have := Js_zero ⟨i, hi'⟩
      simp only [List.getElem_zip, List.getElem_ofFn]
      rw [Js] at this
      rw [this]
      exact hc
  have h3 : ∃ inside, comConstraints com
      (List.ofFn fun i => pimMustEqualVec ((0 : Fin n → Fin 10 → ℝ) i)) = .ok inside := by
    unfold comConstraints
    cases com with
    | none => exact ⟨_, rfl⟩
    | some shapes =>
      refine mapM_ok_iff.mpr fun sJ hsJ => ?_
      exact mustContainScaled_ok (hcom _ rfl _ (List.of_mem_zip hsJ).1) _ _
  obtain ⟨real, h2⟩ := h2
  obtain ⟨inside, h3⟩ := h3
  dsimp only
  rw [h1, h2, h3]
  exact ⟨_, rfl⟩

theorem regularizer_singular {bodies : Fin n → RigidBody ℝ} (hn : n ≠ 0) {i : Fin n}
    (hi : (bodies i).params.J.det = 0) :
    entropicRegularizer (List.ofFn fun i => pimMustEqualVec ((0 : Fin n → Fin 10 → ℝ) i))
        (List.ofFn fun i => (bodies i).params.J) = .error .value := by
  unfold entropicRegularizer
  have hne : (List.ofFn fun i => pimMustEqualVec ((0 : Fin n → Fin 10 → ℝ) i)).isEmpty = false := by
    rw [List.isEmpty_eq_false_iff]
    intro h
    have := congrArg List.length h
    simp at this
    exact hn this
  have hex : ∃ J0 ∈ List.ofFn fun i => (bodies i).params.J, J0.det = 0 := ⟨_, List.mem_ofFn.mpr ⟨i, rfl⟩, hi⟩
  rw [hne]
  simp only [List.length_ofFn, beq_self_eq_true, hex, if_true]
  rfl

theorem cost_ok_inv {P : IdentificationProblem n no k} {bodies : Fin n → RigidBody ℝ} {c : ℝ}
    (h : P.cost bodies 0 = .ok c) : no ≠ 0 ∧ n ≠ 0 ∧ (0 < P.γ → ∀ i, (bodies i).params.J.det ≠ 0) := by
  by_cases h0 : no = 0 ∨ n = 0
  · unfold cost at h
    rw [C78_empty _ _ _ _ h0] at h
    cases h
  · push Not at h0
    refine ⟨h0.1, h0.2, fun hγ i hi => ?_⟩
    unfold cost at h
    rw [C78_value _ _ _ _ h0.1 h0.2] at h
    have h' : (if 0 < P.γ then _ else _) = Except.ok c := h
    rw [if_pos hγ] at h'
    rw [regularizer_singular h0.2 hi] at h'
    cases h'

theorem objective_eq {P : IdentificationProblem n no k} {bodies : Fin n → RigidBody ℝ} (hno : no ≠ 0) (hn : n ≠ 0)
    (hγ : 0 ≤ P.γ) (h0 : 0 < P.γ → ∀ i, (bodies i).params.J.det ≠ 0) (qs : Fin n → IP ℝ)
    (hq : ∀ i, (qs i).Hᵀ = (qs i).H) :
    P.objective bodies (fun i => (qs i).vec) = Spec.identCost P.As P.bs (P.W0.getD 1) P.γ
      (fun i => (bodies i).params.J) (fun i => (qs i).vec) (fun i => (qs i).J) := by
  unfold objective
  rw [cost_eq P bodies hno hn hγ h0]
  have : Js (fun i => (qs i).vec) = fun i => (qs i).J := funext fun i => C12_pim_of_vec _ (hq i)
  rw [this]
  rfl

theorem comConstraint_iff {s : AnyShape ℝ} (hs : s.Valid) (q : IP ℝ) (hm : 0 < q.mass) :
    Py.Holds (comConstraint s q.J) ↔ q.com ∈ Spec.region s := by
  have e1 : (fun i : Fin 3 => q.J i.castSucc 3) = q.mass • q.com := by
    ext i; exact bordered_cl _ _ _ _ i
  have e2 : q.J 3 3 = q.mass := bordered_ll _ _ _ _
  unfold comConstraint
  rw [e1, e2]
  exact mustContainScaled_iff hs q.com q.mass hm

/-- The parameters of admissible bodies are feasible. -/
theorem admissible_feasible {P : IdentificationProblem n no k} {bodies : Fin n → RigidBody ℝ} {mustRealize : Bool}
    {com : Option (List (AnyShape ℝ))} (hε : 0 ≤ P.ε)
    (hs : mustRealize = true → ∀ i, ∀ s ∈ (bodies i).shapes, s.Usable)
    (hcom : ∀ shapes, com = some shapes → shapes.length = n ∧ ∀ s ∈ shapes, s.Valid) {qs : Fin n → IP ℝ}
    (hq : Spec.Admissible (fun i => (bodies i).shapes) mustRealize com P.ε qs)
    (hpd : 0 < P.γ → ∀ i, Spec.PD (qs i).J) :
    Py.Holds (P.constraints bodies mustRealize com fun i => (qs i).vec) := by
  have e : ∀ i, Js (fun i => (qs i).vec) i = (qs i).J := fun i => C12_pim_of_vec _ (hq.symm i)
  rw [constraints_holds _ _ _ _ fun shapes h => (hcom shapes h).1]
  simp only [e]
  have hJ : ∀ i, Spec.PSD ((qs i).J - (0 : ℝ) • (1 : Matrix (Fin 4) (Fin 4) ℝ)) := by
    intro i
    have := (hq.psd i).add (Spec.PSD.one.smul hε)
    rw [sub_add_cancel] at this
    simpa using this
  refine ⟨fun i => (pimPsd_holds hε).mpr (hq.psd i), fun hr i => ?_, ?_, fun hγ i => ⟨(hpd hγ i).psd.2, (hpd hγ i).det_pos⟩⟩
  · exact (C56_necessary (bodies i) (hs hr i) (qs i) (hq.realizable hr i) 0 le_rfl (hJ i) 2 (by norm_num)).1
  · intro shapes hsh i hi
    exact (comConstraint_iff ((hcom shapes hsh).2 _ (List.getElem_mem _)) _ (hq.mass_pos i)).mpr (hq.com_mem _ hsh i hi)

end IdentificationProblem

/-! ## C79 -/

section C79
variable {n no k : ℕ}

/-- C79: creating the problem works exactly when `γ` and `ε` are non-negative and the covariance (if any) is
invertible, and then it stores the data and the inverse of the covariance. -/
theorem C79_init (As : Fin no → Matrix (Fin k) (Fin (n * 10)) ℝ) (bs : Fin no → Fin k → ℝ)
    (cov : Option (Matrix (Fin k) (Fin k) ℝ)) (γ ε : ℝ) :
    (∀ P, IdentificationProblem.init As bs cov γ ε = .ok P ↔ 0 ≤ γ ∧ 0 ≤ ε ∧ P.As = As ∧ P.bs = bs ∧ P.γ = γ ∧ P.ε = ε ∧
      ((cov = none ∧ P.W0 = none) ∨ ∃ S W, cov = some S ∧ P.W0 = some W ∧ W * S = 1)) ∧
    ((γ < 0 ∨ ε < 0) → IdentificationProblem.init As bs cov γ ε = .error .assertion) ∧
    (0 ≤ γ → 0 ≤ ε → ∀ S, cov = some S → S.det = 0 → IdentificationProblem.init As bs cov γ ε = .error .value) := by
  have e : IdentificationProblem.init As bs cov γ ε = if 0 ≤ γ then if 0 ≤ ε then
      (match cov with
        | none => .ok ⟨As, bs, γ, ε, none⟩
        | some S => if S.det = 0 then .error .value else .ok ⟨As, bs, γ, ε, some S⁻¹⟩)
      else .error .assertion else .error .assertion := by
    unfold IdentificationProblem.init
    by_cases h1 : 0 ≤ γ <;> by_cases h2 : 0 ≤ ε <;> simp only [h1, h2, decide_true, decide_false, if_true, if_false] <;> rfl
  rw [e]
  refine ⟨fun P => ?_, ?_, ?_⟩
  · by_cases h1 : 0 ≤ γ
    · by_cases h2 : 0 ≤ ε
      · rw [if_pos h1, if_pos h2]
        obtain ⟨A', b', g', e', W'⟩ := P
        cases cov with
        | none =>
          simp only [Except.ok.injEq, IdentificationProblem.mk.injEq, h1, h2, true_and]
          constructor
          · rintro ⟨rfl, rfl, rfl, rfl, rfl⟩; simp
          · rintro ⟨rfl, rfl, rfl, rfl, h⟩
            rcases h with h | ⟨S, W, h, -⟩
            · simp [h]
            · cases h
        | some S =>
          by_cases hS : S.det = 0
          · simp only [hS, if_true, h1, h2, true_and]
            constructor
            · intro h; cases h
            · rintro ⟨-, -, -, -, h⟩
              rcases h with ⟨h, -⟩ | ⟨S', W, h, -, hW⟩
              · cases h
              · obtain rfl := Option.some.inj h
                have := congrArg Matrix.det hW
                rw [det_mul, hS, mul_zero, det_one] at this
                norm_num at this
          · simp only [hS, if_false, Except.ok.injEq, IdentificationProblem.mk.injEq, h1, h2, true_and]
            constructor
            · rintro ⟨rfl, rfl, rfl, rfl, rfl⟩
              exact ⟨rfl, rfl, rfl, rfl, Or.inr ⟨S, S⁻¹, rfl, rfl, nonsing_inv_mul _ (isUnit_iff_ne_zero.mpr hS)⟩⟩
            · rintro ⟨rfl, rfl, rfl, rfl, h⟩
              rcases h with ⟨h, -⟩ | ⟨S', W, h, hW', hW⟩
              · cases h
              · obtain rfl := Option.some.inj h
                rw [hW', Matrix.inv_eq_left_inv hW]
                simp
      · rw [if_pos h1, if_neg h2]; simp [h2]
    · rw [if_neg h1]; simp [h1]
  · intro h
    rcases h with h | h
    · rw [if_neg (not_le.mpr h)]
    · rw [if_neg (not_le.mpr h)]; simp
  · intro h1 h2 S hS hd
    rw [if_pos h1, if_pos h2, hS]
    dsimp only
    rw [if_pos hd]

example : ∃ P, IdentificationProblem.init (n := 1) (fun _ : Fin 2 => (1 : Matrix (Fin 10) (Fin 10) ℝ)) (fun _ _ => 3)
    (some ((4 : ℝ) • 1)) 1 0 = .ok P ∧ P.W0 = some ((4 : ℝ)⁻¹ • 1) := by
  refine ⟨⟨_, _, _, _, some ((4 : ℝ)⁻¹ • 1)⟩, ((C79_init _ _ _ _ _).1 _).mpr
    ⟨by norm_num, le_rfl, rfl, rfl, rfl, rfl, Or.inr ⟨_, _, rfl, rfl, ?_⟩⟩, rfl⟩
  ext i j
  simp [Matrix.one_apply]

/-- C79: what `solve` returns is one set of parameters per body, with positive masses, no eigenvalue of a pseudo-inertia
matrix below `ε` and all centers of mass in their bounding shapes; they satisfy the realizability constraints, and the
objective is the regularized cost of these parameters. -/
theorem C79_result
    (solver : ((Fin n → Fin 10 → ℝ) → ℝ) → ((Fin n → Fin 10 → ℝ) → Prop) → Option (Fin n → Fin 10 → ℝ))
    (hsolver : Spec.IsSolver solver) (P : IdentificationProblem n no k) (hγ : 0 ≤ P.γ) (hε : 0 ≤ P.ε)
    (bodies : Fin n → RigidBody ℝ) (mustRealize : Bool) (com : Option (List (AnyShape ℝ)))
    (hcom : ∀ shapes, com = some shapes → ∀ s ∈ shapes, s.Valid) (res : IdentificationResult)
    (h : P.solve solver bodies mustRealize com = .ok res) :
    ∃ ps : Fin n → IP ℝ, res.params = List.ofFn ps ∧
      Spec.Admissible (fun i => (bodies i).shapes) false com P.ε ps ∧ (0 < P.γ → ∀ i, Spec.PD (ps i).J) ∧
      (mustRealize = true → ∀ i, Py.Holds ((bodies i).momentSdpConstraints (.mat (ps i).J))) ∧
      res.objective = Spec.identCost P.As P.bs (P.W0.getD 1) P.γ (fun i => (bodies i).params.J)
        (fun i => (ps i).vec) (fun i => (ps i).J) := by
  obtain ⟨hlen, ⟨c, hc⟩, θs, hθ, hps, hobj⟩ := P.solve_ok h
  obtain ⟨hno, hn, h0⟩ := IdentificationProblem.cost_ok_inv hc
  obtain ⟨hfeas, -⟩ := hsolver _ _ _ hθ
  obtain ⟨ps, hps', hvec⟩ := mapM_ofFn_ok hps
  have hf := fun i => fromVec_ok (hvec i)
  have hθs : θs = fun i => (ps i).vec := funext fun i => (hf i).2.2.1.symm
  subst hθs
  have e : ∀ i, IdentificationProblem.Js (fun i => (ps i).vec) i = (ps i).J := fun i => (hf i).2.2.2.symm
  rw [IdentificationProblem.constraints_holds _ _ _ _ hlen] at hfeas
  simp only [e] at hfeas
  obtain ⟨h1, h2, h3, h4⟩ := hfeas
  have hpsd := fun i => (IdentificationProblem.pimPsd_holds hε).mp (h1 i)
  refine ⟨ps, hps', ⟨fun i => (hf i).1, fun i => (hf i).2.1, hpsd, fun h => absurd h (by decide), ?_⟩, ?_, h2, ?_⟩
  · intro l hl i hi
    exact (IdentificationProblem.comConstraint_iff (hcom l hl _ (List.getElem_mem _)) _ (hf i).1).mp (h3 l hl i hi)
  · intro hγ i
    have hs : Spec.PSD (ps i).J := by
      have := (hpsd i).add (Spec.PSD.one.smul hε)
      rwa [sub_add_cancel] at this
    exact hs.pd_of_det (h4 hγ i).2
  · rw [hobj, IdentificationProblem.objective_eq hno hn hγ h0 ps fun i => (hf i).2.1]

/-- C79: if all bodies are made of ellipsoids, the returned parameters can be realized by distributions of mass on the
bodies. -/
theorem C79_ellipsoids
    (solver : ((Fin n → Fin 10 → ℝ) → ℝ) → ((Fin n → Fin 10 → ℝ) → Prop) → Option (Fin n → Fin 10 → ℝ))
    (hsolver : Spec.IsSolver solver) (P : IdentificationProblem n no k) (hγ : 0 ≤ P.γ) (hε : 0 ≤ P.ε)
    (bodies : Fin n → RigidBody ℝ) (hs : ∀ i, ∀ s ∈ (bodies i).shapes, s.Usable ∧ ∃ e, s = .ellipsoid e)
    (com : Option (List (AnyShape ℝ))) (hcom : ∀ shapes, com = some shapes → ∀ s ∈ shapes, s.Valid)
    (res : IdentificationResult) (h : P.solve solver bodies true com = .ok res) :
    ∃ ps : Fin n → IP ℝ, res.params = List.ofFn ps ∧ Spec.Admissible (fun i => (bodies i).shapes) true com P.ε ps := by
  obtain ⟨ps, h1, h2, -, h3, -⟩ := C79_result solver hsolver P hγ hε bodies true com hcom res h
  refine ⟨ps, h1, ⟨h2.mass_pos, h2.symm, h2.psd, fun _ i => ?_, h2.com_mem⟩⟩
  have := ((C56_ellipsoids (bodies i) (fun s h => (hs i s h).1) (fun s h => (hs i s h).2) _ 0 le_rfl 2 (by norm_num)).mp
    (h3 rfl i)).2
  have e1 : (Matrix.of fun a b : Fin 3 => (ps i).J a.castSucc b.castSucc) = (ps i).H := by
    ext a b; exact bordered_cc _ _ _ _ a b
  have e2 : (fun a : Fin 3 => (ps i).J a.castSucc 3) = (ps i).h := by ext a; exact bordered_cl _ _ _ _ a
  have e3 : (ps i).J 3 3 = (ps i).mass := bordered_ll _ _ _ _
  rwa [e1, e2, e3] at this

/-- C79: no admissible parameters have a smaller cost than the returned ones. -/
theorem C79_optimal
    (solver : ((Fin n → Fin 10 → ℝ) → ℝ) → ((Fin n → Fin 10 → ℝ) → Prop) → Option (Fin n → Fin 10 → ℝ))
    (hsolver : Spec.IsSolver solver) (P : IdentificationProblem n no k) (hγ : 0 ≤ P.γ) (hε : 0 ≤ P.ε)
    (bodies : Fin n → RigidBody ℝ) (mustRealize : Bool)
    (hs : mustRealize = true → ∀ i, ∀ s ∈ (bodies i).shapes, s.Usable) (com : Option (List (AnyShape ℝ)))
    (hcom : ∀ shapes, com = some shapes → ∀ s ∈ shapes, s.Valid) (res : IdentificationResult)
    (h : P.solve solver bodies mustRealize com = .ok res) (qs : Fin n → IP ℝ)
    (hq : Spec.Admissible (fun i => (bodies i).shapes) mustRealize com P.ε qs)
    (hpd : 0 < P.γ → ∀ i, Spec.PD (qs i).J) :
    res.objective ≤ Spec.identCost P.As P.bs (P.W0.getD 1) P.γ (fun i => (bodies i).params.J)
        (fun i => (qs i).vec) (fun i => (qs i).J) := by
  obtain ⟨hlen, ⟨c, hc⟩, θs, hθ, hps, hobj⟩ := P.solve_ok h
  obtain ⟨hno, hn, h0⟩ := IdentificationProblem.cost_ok_inv hc
  obtain ⟨-, hopt⟩ := hsolver _ _ _ hθ
  rw [hobj, ← IdentificationProblem.objective_eq hno hn hγ h0 qs hq.symm]
  exact hopt _ (IdentificationProblem.admissible_feasible hε hs (fun l hl => ⟨hlen l hl, hcom l hl⟩) hq hpd)

/-- C79: from noise-free data that determine the parameters, `solve` (without regularization) recovers the true
parameters, whatever the positive definite weight. -/
theorem C79_recovers
    (solver : ((Fin n → Fin 10 → ℝ) → ℝ) → ((Fin n → Fin 10 → ℝ) → Prop) → Option (Fin n → Fin 10 → ℝ))
    (hsolver : Spec.IsSolver solver) (hfinds : Spec.FindsOptimum solver) (P : IdentificationProblem n no k)
    (hγ : P.γ = 0) (hε : 0 ≤ P.ε) (hW : Spec.PD (P.W0.getD 1)) (hno : no ≠ 0) (hn : n ≠ 0)
    (bodies : Fin n → RigidBody ℝ) (mustRealize : Bool)
    (hs : mustRealize = true → ∀ i, ∀ s ∈ (bodies i).shapes, s.Usable) (com : Option (List (AnyShape ℝ)))
    (hcom : ∀ shapes, com = some shapes → shapes.length = n ∧ ∀ s ∈ shapes, s.Valid) (qs : Fin n → IP ℝ)
    (hq : Spec.Admissible (fun i => (bodies i).shapes) mustRealize com P.ε qs)
    (hexact : ∀ o, Spec.residual (P.As o) (P.bs o) (fun i => (qs i).vec) = 0)
    (hident : ∀ θs, (∀ o, Spec.residual (P.As o) (P.bs o) θs = 0) → θs = fun i => (qs i).vec) :
    P.solve solver bodies mustRealize com = .ok ⟨List.ofFn qs, 0⟩ := by
  have h0 : 0 < P.γ → ∀ i, (bodies i).params.J.det ≠ 0 := fun h => absurd hγ h.ne'
  have hpos : (0 : ℝ) < 1 / 2 / no := by
    have : (0 : ℝ) < no := by exact_mod_cast Nat.pos_of_ne_zero hno
    positivity
  have hob : ∀ θs, P.objective bodies θs = 1 / 2 / no * Spec.lsq P.As P.bs (P.W0.getD 1) θs := by
    intro θs
    unfold IdentificationProblem.objective
    rw [P.cost_eq bodies hno hn hγ.ge h0 θs]
    show Spec.identCost _ _ _ _ _ _ _ = _
    rw [Spec.identCost, hγ, zero_mul, add_zero]
  have hnn : ∀ θs, 0 ≤ P.objective bodies θs := fun θs => by
    rw [hob]; exact mul_nonneg hpos.le (lsq_nonneg _ _ _ hW _)
  have hz : P.objective bodies (fun i => (qs i).vec) = 0 := by
    rw [hob, Spec.lsq]; simp [hexact]
  have hfeas := IdentificationProblem.admissible_feasible (P := P) hε hs hcom hq fun h => absurd hγ h.ne'
  rw [P.solve_eq (fun l hl => (hcom l hl).1) ⟨_, P.cost_eq bodies hno hn hγ.ge h0 0⟩
    (P.constraints_ok hε bodies mustRealize hs com fun l hl => (hcom l hl).2)]
  cases hθ : solver (P.objective bodies) (fun θs => Py.Holds (P.constraints bodies mustRealize com θs)) with
  | none => exact absurd hθ (hfinds _ _ _ hfeas fun θs _ => by rw [hz]; exact hnn θs)
  | some θs =>
    obtain ⟨-, hopt⟩ := hsolver _ _ _ hθ
    have h1 : P.objective bodies θs = 0 := le_antisymm (hz ▸ hopt _ hfeas) (hnn θs)
    have h2 : Spec.lsq P.As P.bs (P.W0.getD 1) θs = 0 := by
      have := hob θs
      rw [h1] at this
      exact (mul_eq_zero.mp this.symm).resolve_left hpos.ne'
    have h3 := (C78_zero_iff θs P.As P.bs P.W0 hW hno hn).mp (by rw [C78_value _ _ _ _ hno hn, h2])
    have h4 := hident θs h3
    subst h4
    dsimp only
    rw [mapM_ofFn fun i => C10_fromVec_vec (qs i) (hq.mass_pos i) (hq.symm i), hz]
    rfl

/-- C79: the contracts are satisfied by a solver that picks a minimizer whenever there is one. -/
theorem exists_solver (V : Type) :
    ∃ solver : (V → ℝ) → (V → Prop) → Option V, Spec.IsSolver solver ∧ Spec.FindsOptimum solver := by
  classical
  refine ⟨fun f feas => if h : ∃ x, feas x ∧ ∀ y, feas y → f x ≤ f y then some h.choose else none, ?_, ?_⟩
  · intro f feas x hx
    dsimp only at hx
    split_ifs at hx with h
    obtain rfl := Option.some.inj hx
    exact h.choose_spec
  · intro f feas x h1 h2 hx
    dsimp only at hx
    rw [dif_pos ⟨x, h1, h2⟩] at hx
    cases hx

theorem residual_one (b : Fin 10 → ℝ) (θs : Fin 1 → Fin 10 → ℝ) :
    Spec.residual (n := 1) (k := 10) (1 : Matrix (Fin 10) (Fin 10) ℝ) b θs = θs 0 - b := by
  ext j
  have e : ∀ c : Fin 10, (finProdFinEquiv ((0 : Fin 1), c) : Fin (1 * 10)) = (c : Fin 10) := by
    intro c; apply Fin.ext; simp [finProdFinEquiv]
  simp only [Spec.residual, Finset.univ_unique, Fin.default_eq_zero, Finset.sum_singleton, Pi.sub_apply]
  congr 1
  rw [Finset.sum_eq_single j]
  · rw [e]
    exact (congrArg (· * θs 0 j) (Matrix.one_apply_eq j)).trans (one_mul _)
  · intro c _ hc
    rw [e]
    exact (congrArg (· * θs 0 c) (Matrix.one_apply_ne hc.symm)).trans (zero_mul _)
  · simp

/-- C79: the hypotheses of the recovery theorem are met by direct measurements of the parameters of a ball with a unit
mass at its centre. -/
example : ∃ (solver : ((Fin 1 → Fin 10 → ℝ) → ℝ) → ((Fin 1 → Fin 10 → ℝ) → Prop) → Option (Fin 1 → Fin 10 → ℝ)),
    IdentificationProblem.solve solver
      ⟨fun _ : Fin 1 => (1 : Matrix (Fin 10) (Fin 10) ℝ), fun _ => (⟨1, 0, 0⟩ : IP ℝ).vec, 0, 0, none⟩
      (fun _ => ⟨[.ellipsoid ⟨fun _ => 1, 1, 0⟩], ⟨0, 0, 0⟩⟩) true (some [.ellipsoid ⟨fun _ => 1, 1, 0⟩]) =
      .ok ⟨[⟨1, 0, 0⟩], 0⟩ := by
  obtain ⟨solver, h1, h2⟩ := exists_solver (Fin 1 → Fin 10 → ℝ)
  refine ⟨solver, ?_⟩
  have hO : Spec.Orthogonal (1 : Matrix (Fin 3) (Fin 3) ℝ) := by simp [Spec.Orthogonal]
  have hmem : (0 : Fin 3 → ℝ) ∈ Spec.region (.ellipsoid (⟨fun _ => 1, 1, 0⟩ : Ellipsoid ℝ 3)) := by
    exact ⟨0, by simp, by ext i; simp [Spec.rigid]⟩
  refine C79_recovers solver h1 h2 _ rfl le_rfl ?_ one_ne_zero one_ne_zero _ true ?_ _ ?_
    (fun _ => ⟨1, 0, 0⟩) ?_ ?_ ?_
  · exact Spec.PD.one
  · intro _ i s hs
    rw [List.mem_singleton.mp hs]
    exact ⟨hO, fun i => Or.inr (by norm_num)⟩
  · intro shapes h
    obtain rfl := Option.some.inj h
    refine ⟨rfl, fun s hs => ?_⟩
    rw [List.mem_singleton.mp hs]
    exact ⟨hO, fun i => by norm_num⟩
  · have hr := Spec.Realizable.point (K := ℝ) (S := Spec.bodyRegion
      [.ellipsoid (⟨fun _ => 1, 1, 0⟩ : Ellipsoid ℝ 3)]) (a := 1) (p := 0) zero_le_one ⟨_, by simp, hmem⟩
    have hr' : Spec.Realizable (Spec.bodyRegion [.ellipsoid (⟨fun _ => 1, 1, 0⟩ : Ellipsoid ℝ 3)]) (1 : ℝ)
        (⟨1, 0, 0⟩ : IP ℝ).h (0 : Matrix (Fin 3) (Fin 3) ℝ) := by
      convert hr using 1
      · simp [IP.h]
      · ext i j; simp [outer_apply]
    refine ⟨fun _ => zero_lt_one, fun _ => by simp, fun _ => ?_, fun _ _ => hr', ?_⟩
    · have := hr'.psd
      simpa [IP.J] using this
    · intro l hl i hi
      obtain rfl := Option.some.inj hl
      obtain rfl : i = 0 := Subsingleton.elim _ _
      exact hmem
  · intro o; exact (residual_one _ _).trans (sub_self _)
  · intro θs h
    funext i
    obtain rfl : i = 0 := Subsingleton.elim _ _
    exact sub_eq_zero.mp ((residual_one _ _).symm.trans (h 0))

/-- C79: how a call of `solve` fails. The number of bounding shapes must be the number of bodies; without observations
or bodies and (if `γ > 0`) with a nominal body whose pseudo-inertia matrix is singular, such as a massless one, building
the problem fails; and if the solver does not report an optimum, an assertion fails. -/
theorem C79_errors
    (solver : ((Fin n → Fin 10 → ℝ) → ℝ) → ((Fin n → Fin 10 → ℝ) → Prop) → Option (Fin n → Fin 10 → ℝ))
    (P : IdentificationProblem n no k) (bodies : Fin n → RigidBody ℝ) (mustRealize : Bool)
    (com : Option (List (AnyShape ℝ))) :
    (∀ shapes, com = some shapes → shapes.length ≠ n → P.solve solver bodies mustRealize com = .error .assertion) ∧
    ((∀ shapes, com = some shapes → shapes.length = n) → (no = 0 ∨ n = 0) →
      P.solve solver bodies mustRealize com = .error .value) ∧
    ((∀ shapes, com = some shapes → shapes.length = n) → 0 < P.γ → (∃ i, (bodies i).params.J.det = 0) →
      P.solve solver bodies mustRealize com = .error .value) ∧
    (∀ res, P.solve solver bodies mustRealize com = .ok res → ∃ obj feas, solver obj feas ≠ none) := by
  have key : (∀ shapes, com = some shapes → shapes.length = n) → P.cost bodies 0 = .error .value →
      P.solve solver bodies mustRealize com = .error .value := by
    intro hlen hc
    unfold IdentificationProblem.solve
    cases com with
    | none => dsimp only; rw [hc]; rfl
    | some shapes =>
      have : (shapes.length == n) = true := by simpa using hlen shapes rfl
      simp only [this, hc]
      rfl
  refine ⟨?_, fun hlen h0 => key hlen ?_, fun hlen hγ hi => ?_, fun res h => ?_⟩
  · rintro shapes rfl hne
    have : (shapes.length == n) = false := by simpa using hne
    unfold IdentificationProblem.solve
    simp only [this]
    rfl
  · unfold IdentificationProblem.cost
    rw [C78_empty _ _ _ _ h0]; rfl
  · by_cases h0 : no = 0 ∨ n = 0
    · refine key hlen ?_
      unfold IdentificationProblem.cost
      rw [C78_empty _ _ _ _ h0]; rfl
    · push Not at h0
      refine key hlen ?_
      unfold IdentificationProblem.cost
      rw [C78_value _ _ _ _ h0.1 h0.2]
      show (if 0 < P.γ then _ else _) = _
      rw [if_pos hγ]
      obtain ⟨i, hi⟩ := hi
      rw [IdentificationProblem.regularizer_singular h0.2 hi]
      rfl
  · obtain ⟨-, -, θs, hθ, -⟩ := P.solve_ok h
    exact ⟨_, _, by rw [hθ]; simp⟩

/-- C79: a body with a capsule makes `solve` with realizability constraints raise `AttributeError`. -/
theorem C79_capsule
    (solver : ((Fin n → Fin 10 → ℝ) → ℝ) → ((Fin n → Fin 10 → ℝ) → Prop) → Option (Fin n → Fin 10 → ℝ))
    (P : IdentificationProblem n no k) (hε : 0 ≤ P.ε) (hγ : 0 ≤ P.γ) (hno : no ≠ 0) (bodies : Fin n → RigidBody ℝ)
    (h0 : 0 < P.γ → ∀ i, (bodies i).params.J.det ≠ 0)
    (hs : ∀ i, ∀ s ∈ (bodies i).shapes, (∃ c', s = .capsule c') ∨ s.Usable)
    (hc : ∃ i c, .capsule c ∈ (bodies i).shapes) :
    P.solve solver bodies = .error .attribute := by
  obtain ⟨i₀, c₀, hc₀⟩ := hc
  have hn : n ≠ 0 := by rintro rfl; exact i₀.elim0
  have hk : P.constraints bodies true none 0 = .error .attribute := by
    unfold IdentificationProblem.constraints
    obtain ⟨psd, h1⟩ := (mapM_ok_iff (f := fun J => pimPsd J P.ε)
      (l := List.ofFn fun i => pimMustEqualVec ((0 : Fin n → Fin 10 → ℝ) i))).mpr (by
        intro J _; unfold pimPsd; rw [if_pos hε]; exact ⟨_, rfl⟩)
    dsimp only
    rw [h1]
    have h2 : IdentificationProblem.realizabilityConstraints bodies true
        (List.ofFn fun i => pimMustEqualVec ((0 : Fin n → Fin 10 → ℝ) i)) = .error .attribute := by
      unfold IdentificationProblem.realizabilityConstraints
      rw [if_pos rfl]
      refine mapM_error (e := .attribute) _ _ ?_ ?_
      · intro bJ hbJ
        obtain ⟨i, hi, rfl⟩ := List.mem_iff_getElem.mp hbJ
        have hi' : i < n := by simpa using hi
        have hJ := IdentificationProblem.Js_zero ⟨i, hi'⟩
        rw [IdentificationProblem.Js] at hJ
        simp only [List.getElem_zip, List.getElem_ofFn]
        rw [hJ]
        by_cases hcap : ∃ c, .capsule c ∈ (bodies ⟨i, hi'⟩).shapes
        · obtain ⟨c, hc⟩ := hcap
          right
          exact C56_capsule _ c hc (hs _) _ 0 le_rfl 2 (by norm_num)
        · left
          have hu : ∀ s ∈ (bodies ⟨i, hi'⟩).shapes, s.Usable := by
            intro s hsm
            rcases hs _ s hsm with ⟨c, rfl⟩ | h
            · exact absurd ⟨c, hsm⟩ hcap
            · exact h
          have hh : (⟨0, 0, 0⟩ : IP ℝ).h = 0 := by simp [IP.h]
          have hJ : (⟨0, 0, 0⟩ : IP ℝ).J = 0 := by simp only [IP.J, hh, bordered_zero]
          obtain ⟨⟨c, hc, -⟩, -⟩ := C56_necessary _ hu ⟨0, 0, 0⟩ (by rw [hh]; exact .zero _) 0
            le_rfl (by rw [hJ]; simpa using Spec.PSD.zero) 2 (by norm_num)
          rw [hJ] at hc
          exact ⟨c, hc⟩
      · refine ⟨(bodies i₀, pimMustEqualVec ((0 : Fin n → Fin 10 → ℝ) i₀)), ?_, ?_⟩
        · rw [List.mem_iff_getElem]
          exact ⟨i₀, by simp, by simp⟩
        · exact C56_capsule _ c₀ hc₀ (hs _) _ 0 le_rfl 2 (by norm_num)
    rw [h2]
    rfl
  unfold IdentificationProblem.solve
  dsimp only
  rw [P.cost_eq bodies hno hn hγ h0 0, hk]
  rfl

/-- C79: with observations that say nothing but that nothing is there (`bs = 0`, and the parameters determined by the
data), the optimum has zero mass and the returned parameters are not finite: the division `h / m` in
`InertialParameters` is `0 / 0`. -/
theorem C79_massless
    (solver : ((Fin n → Fin 10 → ℝ) → ℝ) → ((Fin n → Fin 10 → ℝ) → Prop) → Option (Fin n → Fin 10 → ℝ))
    (hsolver : Spec.IsSolver solver) (hfinds : Spec.FindsOptimum solver) (P : IdentificationProblem n no k)
    (hγ : P.γ = 0) (hε : P.ε = 0) (hW : Spec.PD (P.W0.getD 1)) (hno : no ≠ 0) (hn : n ≠ 0)
    (bodies : Fin n → RigidBody ℝ) (hs : ∀ i, ∀ s ∈ (bodies i).shapes, s.Usable) (hb : ∀ o, P.bs o = 0)
    (hident : ∀ θs, (∀ o, Spec.residual (P.As o) 0 θs = 0) → θs = 0) :
    P.solve solver bodies = .error .nonfinite := by
  have h0 : 0 < P.γ → ∀ i, (bodies i).params.J.det ≠ 0 := fun h => absurd hγ h.ne'
  have hpos : (0 : ℝ) < 1 / 2 / no := by
    have : (0 : ℝ) < no := by exact_mod_cast Nat.pos_of_ne_zero hno
    positivity
  have hob : ∀ θs, P.objective bodies θs = 1 / 2 / no * Spec.lsq P.As P.bs (P.W0.getD 1) θs := by
    intro θs
    unfold IdentificationProblem.objective
    rw [P.cost_eq bodies hno hn hγ.ge h0 θs]
    show Spec.identCost _ _ _ _ _ _ _ = _
    rw [Spec.identCost, hγ, zero_mul, add_zero]
  have hnn : ∀ θs, 0 ≤ P.objective bodies θs := fun θs => by
    rw [hob]; exact mul_nonneg hpos.le (lsq_nonneg _ _ _ hW _)
  have hr0 : ∀ o, Spec.residual (P.As o) (P.bs o) (0 : Fin n → Fin 10 → ℝ) = 0 := by
    intro o; rw [hb]; ext j; simp [Spec.residual]
  have hz : P.objective bodies 0 = 0 := by
    rw [hob, Spec.lsq]; simp [hr0]
  have hh : (⟨0, 0, 0⟩ : IP ℝ).h = 0 := by simp [IP.h]
  have hJ : (⟨0, 0, 0⟩ : IP ℝ).J = 0 := by simp only [IP.J, hh, bordered_zero]
  have hfeas : Py.Holds (P.constraints bodies true none 0) := by
    rw [IdentificationProblem.constraints_holds _ _ _ _ (by simp)]
    simp only [IdentificationProblem.Js_zero]
    refine ⟨fun i => (IdentificationProblem.pimPsd_holds hε.ge).mpr ?_, fun _ i => ?_, by simp, fun h => absurd hγ h.ne'⟩
    · rw [hε]; simpa using Spec.PSD.zero
    · rw [← hJ]
      exact (C56_necessary _ (hs i) ⟨0, 0, 0⟩ (by rw [hh]; exact .zero _) 0
            le_rfl (by rw [hJ]; simpa using Spec.PSD.zero) 2 (by norm_num)).1
  rw [P.solve_eq (by simp) ⟨_, P.cost_eq bodies hno hn hγ.ge h0 0⟩
    (P.constraints_ok hε.ge bodies true (fun _ => hs) none (by simp))]
  cases hθ : solver (P.objective bodies) (fun θs => Py.Holds (P.constraints bodies true none θs)) with
  | none => exact absurd hθ (hfinds _ _ _ hfeas fun θs _ => by rw [hz]; exact hnn θs)
  | some θs =>
    obtain ⟨-, hopt⟩ := hsolver _ _ _ hθ
    have h1 : P.objective bodies θs = 0 := le_antisymm (hz ▸ hopt _ hfeas) (hnn θs)
    have h2 : Spec.lsq P.As P.bs (P.W0.getD 1) θs = 0 := by
      have := hob θs
      rw [h1] at this
      exact (mul_eq_zero.mp this.symm).resolve_left hpos.ne'
    have h3 := (C78_zero_iff θs P.As P.bs P.W0 hW hno hn).mp (by rw [C78_value _ _ _ _ hno hn, h2])
    have h4 := hident θs fun o => hb o ▸ h3 o
    subst h4
    dsimp only
    have hm : (List.ofFn (0 : Fin n → Fin 10 → ℝ)).mapM IP.fromVec = .error .nonfinite := by
      refine mapM_error _ _ (fun a ha => ?_)
        ⟨0, List.mem_ofFn.mpr ⟨⟨0, Nat.pos_of_ne_zero hn⟩, rfl⟩, fromVec_zero rfl⟩
      obtain ⟨i, rfl⟩ := List.mem_ofFn.mp ha
      exact Or.inr (fromVec_zero rfl)
    rw [hm]
    rfl

/-- C79: the hypotheses are met by direct measurements of nothing. -/
example : ∃ (solver : ((Fin 1 → Fin 10 → ℝ) → ℝ) → ((Fin 1 → Fin 10 → ℝ) → Prop) → Option (Fin 1 → Fin 10 → ℝ)),
    IdentificationProblem.solve solver
      ⟨fun _ : Fin 1 => (1 : Matrix (Fin 10) (Fin 10) ℝ), fun _ => 0, 0, 0, none⟩
      (fun _ => ⟨[.ellipsoid ⟨fun _ => 1, 1, 0⟩], ⟨0, 0, 0⟩⟩) = .error .nonfinite := by
  obtain ⟨solver, h1, h2⟩ := exists_solver (Fin 1 → Fin 10 → ℝ)
  refine ⟨solver, C79_massless solver h1 h2 _ rfl rfl ?_ one_ne_zero one_ne_zero _ ?_ (fun _ => rfl) ?_⟩
  · exact Spec.PD.one
  · intro i s hs
    rw [List.mem_singleton.mp hs]
    exact ⟨by simp [Spec.Orthogonal], fun i => Or.inr (by norm_num)⟩
  · intro θs h
    funext i
    obtain rfl : i = 0 := Subsingleton.elim _ _
    exact sub_eq_zero.mp ((residual_one _ _).symm.trans (h 0))

end C79
end Rigeo
