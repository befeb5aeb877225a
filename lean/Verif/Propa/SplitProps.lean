import Verif.Propa.SplitModel
import Mathlib.Tactic.Ring

/-
Properties of the general split operator propagator: C33.
-/

namespace QDng.Propa

section

variable {V X : Type}

/-! ### Specification -/

/-- The exponential of a part at a time step with a factor: forward transformation, multiplication by the
normalized exponential, backward transformation. -/
def partExp (mul : X → V → V) (p : Part V X) (step : Int) (c : ℂ) (ψ : V) : V :=
  match p.transf with
  | none => mul (p.expo step c) ψ
  | some t => t.bwd (mul (t.norm (p.expo step c)) (t.fwd ψ))

/-- Symmetric product: the outer factors from the last to the first, the middle one, and the outer ones from the
first to the last. -/
def symmetric (mid : V → V) (outer : List (V → V)) (ψ : V) : V :=
  outer.foldl (fun x f => f x) (mid (outer.reverse.foldl (fun x f => f x) ψ))

/-- The split operator step at a time step with an exponent. -/
noncomputable def splitStep (mul : X → V → V) (a : Part V X) (rest : List (Part V X)) (step : Int) (e : ℂ) : V → V :=
  symmetric (partExp mul a step e) (rest.map fun p => partExp mul p step (e / 2))

/-- Time independent parts do not depend on the time step. -/
def HonestPart (p : Part V X) : Prop := p.timeDep = false → ∀ s s' c, p.expo s c = p.expo s' c

/-! ### Freshness -/

/-- The cache belongs to its own time step and exponent. -/
def Belongs (parts : List (Part V X)) (c : Cache X) : Prop :=
  c.exps.length = parts.length ∧
    (c.laststep ≠ -1 → ∀ (i : Nat) p, parts[i]? = some p →
      c.exps[i]? = some (newExp p c.laststep c.lastexp (if i = 0 then 1 else 1 / 2)))

theorem refresh_length (c : Cache X) (step : Int) (e : ℂ) :
    ∀ (parts : List (Part V X)) (xs : List X) (sf : ℂ), (refresh c step e sf parts xs).length = xs.length := by
  intro parts
  induction parts with
  | nil => intro xs sf; cases xs <;> rfl
  | cons p ps ih =>
    intro xs sf
    cases xs with
    | nil => rfl
    | cons x xs => simp [refresh, ih]

open Classical in
theorem refresh_get (c : Cache X) (step : Int) (e : ℂ) :
    ∀ (parts : List (Part V X)) (xs : List X) (sf : ℂ) (i : Nat) p x, parts[i]? = some p → xs[i]? = some x →
      (refresh c step e sf parts xs)[i]? =
        some (if outdated p c step e then newExp p step e (if i = 0 then sf else 1 / 2) else x) := by
  intro parts
  induction parts with
  | nil => intro xs sf i p x h; simp at h
  | cons q ps ih =>
    intro xs sf i p x hp hx
    cases xs with
    | nil => simp at hx
    | cons y ys =>
      cases i with
      | zero =>
        simp at hp hx
        subst hp; subst hx
        simp [refresh]
      | succ i =>
        have h := ih ys (1 / 2) i p x (by simpa using hp) (by simpa using hx)
        simp only [refresh, List.getElem?_cons_succ]
        rw [h]
        congr 1
        have : (if i = 0 then (1 / 2 : ℂ) else 1 / 2) = 1 / 2 := by split <;> rfl
        simp

/-- After `InitExp` every exponential belongs to the current time step and exponent. -/
theorem initExp_fresh (parts : List (Part V X)) (hh : ∀ p ∈ parts, HonestPart p) (step : Int) (e : ℂ)
    (c : Cache X) (hc : Belongs parts c) :
    (initExp parts step e c).exps.length = parts.length ∧
      ∀ (i : Nat) p, parts[i]? = some p →
        (initExp parts step e c).exps[i]? = some (newExp p step e (if i = 0 then 1 else 1 / 2)) := by
  refine ⟨by simp [initExp, refresh_length, hc.1], ?_⟩
  intro i p hp
  have hi : i < parts.length := by
    rw [List.getElem?_eq_some_iff] at hp
    exact hp.1
  have hx : c.exps[i]? = some (c.exps[i]'(by rw [hc.1]; exact hi)) := List.getElem?_eq_getElem _
  unfold initExp
  dsimp only
  rw [refresh_get c step e parts c.exps 1 i p _ hp hx]
  congr 1
  split
  · rfl
  · rename_i hn
    unfold outdated at hn
    simp only [not_or, not_and, ne_eq, not_not] at hn
    obtain ⟨n1, n2, n3, n4⟩ := hn
    have he : c.lastexp = e := Complex.ext n3 n4
    have h := hc.2 n2 i p hp
    rw [hx] at h
    rw [Option.some.inj h, he]
    cases htd : p.timeDep with
    | true => rw [n1 htd]
    | false =>
      have := hh p (List.mem_of_getElem? hp) htd
      unfold newExp
      split <;> rw [this c.laststep step]

theorem initExp_belongs (parts : List (Part V X)) (hh : ∀ p ∈ parts, HonestPart p) (step : Int) (e : ℂ)
    (c : Cache X) (hc : Belongs parts c) : Belongs parts (initExp parts step e c) :=
  ⟨(initExp_fresh parts hh step e c hc).1, fun _ => (initExp_fresh parts hh step e c hc).2⟩

/-! ### The two loops -/

theorem splitDown_eq (mul : X → V → V) (parts : List (Part V X)) (exps : List X) (fs : List (V → V))
    (h : ∀ i, i < fs.length → ∀ ψ, splitBody mul parts exps (i + 1) ψ = some ((fs.getD i id) ψ)) :
    ∀ n, n ≤ fs.length → ∀ ψ, splitDown mul parts exps n ψ =
      some ((fs.take n).reverse.foldl (fun x f => f x) ψ) := by
  intro n
  induction n with
  | zero => intro _ ψ; rfl
  | succ n ih =>
    intro hn ψ
    rw [splitDown, h n (by omega), Option.bind_some, ih (by omega), List.take_add_one,
      List.getElem?_eq_getElem (by omega), List.reverse_append]
    simp [List.getD_eq_getElem?_getD, List.getElem?_eq_getElem (show n < fs.length by omega)]

theorem splitUp_eq (mul : X → V → V) (parts : List (Part V X)) (exps : List X) (fs : List (V → V))
    (h : ∀ i, i < fs.length → ∀ ψ, splitBody mul parts exps i ψ = some ((fs.getD i id) ψ)) :
    ∀ n i, i + n = fs.length → ∀ ψ, splitUp mul parts exps n i ψ =
      some ((fs.drop i).foldl (fun x f => f x) ψ) := by
  intro n
  induction n with
  | zero =>
    intro i hi ψ
    rw [List.drop_eq_nil_of_le (by omega)]
    rfl
  | succ n ih =>
    intro i hi ψ
    rw [splitUp, h i (by omega), Option.bind_some, ih (i + 1) (by omega),
      List.drop_eq_getElem_cons (show i < fs.length by omega), List.foldl_cons]
    simp [List.getD_eq_getElem?_getD, List.getElem?_eq_getElem (show i < fs.length by omega)]

theorem splitBody_fresh (mul : X → V → V) (parts : List (Part V X)) (exps : List X) (step : Int) (e sf : ℂ)
    (i : Nat) (p : Part V X) (hp : parts[i]? = some p) (hx : exps[i]? = some (newExp p step e sf)) (ψ : V) :
    splitBody mul parts exps i ψ = some (partExp mul p step (e * sf) ψ) := by
  unfold splitBody
  rw [hp, hx]
  dsimp only
  unfold newExp partExp
  cases p.transf <;> rfl

/-- One call from a cache that belongs to its time step: the symmetric product, and the invariant again. -/
theorem splitApply_eq (mul : X → V → V) (a : Part V X) (rest : List (Part V X))
    (hh : ∀ p ∈ a :: rest, HonestPart p) (step : Int) (e : ℂ) (c : Cache X) (hc : Belongs (a :: rest) c) (ψ : V) :
    (splitApply mul (a :: rest) step e c ψ).2 = some (splitStep mul a rest step e ψ) ∧
      Belongs (a :: rest) (splitApply mul (a :: rest) step e c ψ).1 := by
  refine ⟨?_, initExp_belongs _ hh step e c hc⟩
  obtain ⟨hlen, hf⟩ := initExp_fresh (a :: rest) hh step e c hc
  have body : ∀ (i : Nat) p, (a :: rest)[i]? = some p → ∀ ψ,
      splitBody mul (a :: rest) (initExp (a :: rest) step e c).exps i ψ =
        some (partExp mul p step (if i = 0 then e else e / 2) ψ) := by
    intro i p hp ψ
    rw [splitBody_fresh mul _ _ step e _ i p hp (hf i p hp)]
    congr 2
    split
    · ring
    · ring
  have e1 : (e : ℂ) / 2 = e / 2 := rfl
  unfold splitApply
  dsimp only
  rw [splitDown_eq mul (a :: rest) _ (rest.map fun p => partExp mul p step (e / 2)) ?_
    ((a :: rest).length - 1) (by simp)]
  · rw [Option.bind_some, splitUp_eq mul (a :: rest) _
      (partExp mul a step e :: rest.map fun p => partExp mul p step (e / 2)) ?_ _ 0 (by simp)]
    · simp [splitStep, symmetric, List.take_of_length_le]
    · intro i hi ψ
      cases i with
      | zero => simpa using body 0 a (by simp) ψ
      | succ i =>
        have hi' : i < rest.length := by simpa using hi
        have := body (i + 1) rest[i] (by simp [List.getElem?_eq_getElem hi']) ψ
        rw [this, if_neg (by omega)]
        simp [hi']
  · intro i hi ψ
    have hi' : i < rest.length := by simpa using hi
    have := body (i + 1) rest[i] (by simp [List.getElem?_eq_getElem hi']) ψ
    rw [this, if_neg (by omega)]
    simp [hi']

/-! ### C33 -/

/-- What happens to a propagator: it is applied at a time step of the clock with an exponent, or its state is
replaced by that of a copy (storage with arbitrary content of the right size). -/
inductive SplitEvent (V X : Type) where
  | apply (step : Int) (e : ℂ) (ψ : V)
  | copy (exps : List X) (e : ℂ)

/-- The state after a history. -/
noncomputable def history (mul : X → V → V) (parts : List (Part V X)) : Cache X → List (SplitEvent V X) → Cache X
  | c, [] => c
  | c, .apply s e ψ :: l => history mul parts (splitApply mul parts s e c ψ).1 l
  | _, .copy xs e :: l => history mul parts (Cache.fresh xs e) l

/-- With a constant normalization (see `NormProps`): after every history of time steps, exponents, applications and
copies, one application is the symmetric product of the exponentials of the parts at the current time step and
exponent. -/
theorem history_fresh (mul : X → V → V) (a : Part V X) (rest : List (Part V X))
    (hh : ∀ p ∈ a :: rest, HonestPart p) (xs : List X) (hxs : xs.length = (a :: rest).length) (e0 : ℂ)
    (l : List (SplitEvent V X)) (hl : ∀ ys e, SplitEvent.copy ys e ∈ l → ys.length = (a :: rest).length)
    (step : Int) (e : ℂ) (ψ : V) :
    (splitApply mul (a :: rest) step e (history mul (a :: rest) (Cache.fresh xs e0) l) ψ).2 =
      some (splitStep mul a rest step e ψ) := by
  have key : ∀ (l : List (SplitEvent V X)) c, Belongs (a :: rest) c →
      (∀ ys e, SplitEvent.copy ys e ∈ l → ys.length = (a :: rest).length) →
      Belongs (a :: rest) (history mul (a :: rest) c l) := by
    intro l
    induction l with
    | nil => intro c hc _; exact hc
    | cons x l ih =>
      intro c hc hl
      cases x with
      | apply s e ψ =>
        exact ih _ (splitApply_eq mul a rest hh s e c hc ψ).2 (fun ys e' h => hl ys e' (List.mem_cons_of_mem _ h))
      | copy ys e =>
        refine ih _ ⟨hl ys e List.mem_cons_self, fun h => absurd rfl h⟩
          (fun ys e' h => hl ys e' (List.mem_cons_of_mem _ h))
  exact (splitApply_eq mul a rest hh step e _ (key l _ ⟨hxs, fun h => absurd rfl h⟩ hl) ψ).1

theorem foldl_cancel {α : Type} (fs gs : List (α → α)) (hlen : fs.length = gs.length)
    (h : ∀ i, i < fs.length → ∀ x, (gs.getD i id) ((fs.getD i id) x) = x) (x : α) :
    gs.reverse.foldl (fun x f => f x) (fs.foldl (fun x f => f x) x) = x := by
  induction fs generalizing gs x with
  | nil =>
    cases gs with
    | nil => rfl
    | cons g gs => simp at hlen
  | cons f fs ih =>
    cases gs with
    | nil => simp at hlen
    | cons g gs =>
      have h0 := h 0 (by simp)
      have hs : ∀ i, i < fs.length → ∀ x, (gs.getD i id) ((fs.getD i id) x) = x := by
        intro i hi
        have := h (i + 1) (by simpa using hi)
        simpa using this
      rw [List.reverse_cons, List.foldl_append, List.foldl_cons (l := fs), ih gs (by simpa using hlen) hs]
      simpa using h0 x

/-- C33: a step with the opposite exponent undoes a step, when the exponentials of the parts with opposite
factors undo each other. -/
theorem C33_reversible (mul : X → V → V) (a : Part V X) (rest : List (Part V X)) (step : Int) (e : ℂ)
    (hinv : ∀ p ∈ a :: rest, ∀ c ψ, partExp mul p step (-c) (partExp mul p step c ψ) = ψ) (ψ : V) :
    splitStep mul a rest step (-e) (splitStep mul a rest step e ψ) = ψ := by
  unfold splitStep symmetric
  have hneg : ∀ p ∈ rest, ∀ x, partExp mul p step (-e / 2) (partExp mul p step (e / 2) x) = x := by
    intro p hp x
    have := hinv p (List.mem_cons_of_mem _ hp) (e / 2) x
    rwa [show -(e / 2) = -e / 2 by ring] at this
  rw [foldl_cancel _ _ (by simp) ?_ _, hinv a List.mem_cons_self]
  · have := foldl_cancel (rest.map fun p => partExp mul p step (e / 2)).reverse
      (rest.map fun p => partExp mul p step (-e / 2)).reverse (by simp) ?_ ψ
    · rwa [List.reverse_reverse] at this
    · intro i hi x
      rw [List.length_reverse, List.length_map] at hi
      rw [← List.map_reverse, ← List.map_reverse]
      have hi' : i < rest.reverse.length := by simpa using hi
      simp only [List.getD_eq_getElem?_getD, List.getElem?_map, List.getElem?_eq_getElem hi', Option.map_some,
        Option.getD_some]
      exact hneg _ (List.mem_reverse.mp (List.getElem_mem hi')) x
  · intro i hi x
    rw [List.length_map] at hi
    simp only [List.getD_eq_getElem?_getD, List.getElem?_map, List.getElem?_eq_getElem hi, Option.map_some,
      Option.getD_some]
    exact hneg _ (List.getElem_mem hi) x

end

/-- A case that meets the hypotheses of both theorems: wave functions are complex numbers, the first part is
constant, the second depends on time, diagonals are added (the logarithms of factors). -/
example : ∃ (a b : Part ℂ ℂ), (∀ p ∈ [a, b], HonestPart p) ∧ b.timeDep = true ∧
    (∀ p ∈ [a, b], ∀ step c ψ, partExp (fun x y => x + y) p step (-c) (partExp (fun x y => x + y) p step c ψ) = ψ) ∧
    splitStep (fun x y => x + y) a [b] 3 1 0 = 5 := by
  refine ⟨{ timeDep := false, expo := fun _ c => 2 * c, transf := none },
    { timeDep := true, expo := fun s c => s * c, transf := none }, ?_, rfl, ?_, ?_⟩
  · intro p hp
    simp only [List.mem_cons, List.not_mem_nil, or_false] at hp
    rcases hp with rfl | rfl
    · intro _ _ _ _; rfl
    · intro h; simp at h
  · intro p hp
    simp only [List.mem_cons, List.not_mem_nil, or_false] at hp
    rcases hp with rfl | rfl <;> intro s c ψ <;> simp [partExp]
  · simp [splitStep, symmetric, partExp]
    norm_num

end QDng.Propa
