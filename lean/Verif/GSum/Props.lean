import Verif.GSum.Lemmas

/-!
# Properties of sums of grid operators
-/

namespace QDng.GSum

open QDng.Common

/-! ### C306 -/

theorem sum_le_sum (i : Nat) (os : List Pot) (es : List ℝ) (R : Pot → ℝ → Prop) (h : List.Forall₂ R os es)
    (hi : ∀ o ∈ os, i < o.vals.length) :
    ((∀ o d, R o d → ∀ x ∈ o.vals, d ≤ x) → es.sum ≤ valueAt os i) ∧
    ((∀ o d, R o d → ∀ x ∈ o.vals, x ≤ d) → valueAt os i ≤ es.sum) := by
  unfold valueAt
  induction h with
  | nil => simp
  | @cons o d os es hod _ ih =>
    obtain ⟨h1, h2⟩ := ih (fun o ho => hi o (List.mem_cons_of_mem _ ho))
    have hmem : o.vals.getD i 0 ∈ o.vals := by
      have := hi o List.mem_cons_self
      rw [List.getD_eq_getElem?_getD, List.getElem?_eq_getElem this]
      exact List.getElem_mem _
    simp only [List.map_cons, List.sum_cons]
    constructor
    · intro hR
      have := hR o d hod _ hmem
      have := h1 hR
      linarith
    · intro hR
      have := hR o d hod _ hmem
      have := h2 hR
      linarith

/-- The energy bounds of a sum enclose the sum of its members at every grid point, and each is a sum of values the members
have.  An empty sum is reported. -/
theorem C306 (w : World) (s : Nat) (ps : List Nat) (os : List Pot) (N : Nat) (hm : Members w s ps) (hl : Living w ps os)
    (hN : 0 < N) (hos : ∀ o ∈ os, o.vals.length = N) :
    (ps = [] → emin w s = .threw ∧ emax w s = .threw) ∧
    (ps ≠ [] → ∃ lo hi, emin w s = .val lo ∧ emax w s = .val hi ∧
      (∀ i, i < N → lo ≤ valueAt os i ∧ valueAt os i ≤ hi) ∧
      (∃ xs, List.Forall₂ (fun o x => x ∈ o.vals) os xs ∧ lo = xs.sum) ∧
      (∃ xs, List.Forall₂ (fun o x => x ∈ o.vals) os xs ∧ hi = xs.sum)) := by
  obtain ⟨q, hq, hn, hO⟩ := members_O hm
  constructor
  · intro h
    have h0 : q.n = 0 := by rw [hn, h]; rfl
    constructor
    · simp only [emin, hq, h0, if_true]
    · simp only [emax, hq, h0, if_true]
  · intro h
    have h0 : q.n ≠ 0 := by rw [hn]; exact fun h' => h (List.length_eq_zero_iff.1 h')
    have hne : ∀ o ∈ os, o.vals ≠ [] := by
      intro o ho he
      have := hos o ho
      rw [he] at this
      simp at this
      omega
    obtain ⟨ls, hl1, hl2, hl3⟩ := living_energies w Pot.emin (fun o d => d ∈ o.vals ∧ ∀ x ∈ o.vals, d ≤ x)
      (fun o ho => (emin_spec o ho).imp fun d hd => ⟨hd.1, hd.2⟩) ps os hl hne
    obtain ⟨us, hu1, hu2, hu3⟩ := living_energies w Pot.emax (fun o d => d ∈ o.vals ∧ ∀ x ∈ o.vals, x ≤ d)
      (fun o ho => (emax_spec o ho).imp fun d hd => ⟨hd.1, hd.2⟩) ps os hl hne
    refine ⟨ls.sum, us.sum, ?_, ?_, ?_, ⟨ls, hl1.imp fun _ _ h => h.1, rfl⟩, ⟨us, hu1.imp fun _ _ h => h.1, rfl⟩⟩
    · simp only [emin, hq]
      rw [if_neg h0, hn, sumE_eq w Pot.emin q.O ps ls hl2 hO hl3]
    · simp only [emax, hq]
      rw [if_neg h0, hn, sumE_eq w Pot.emax q.O ps us hu2 hO hu3]
    · intro i hi
      have hi' : ∀ o ∈ os, i < o.vals.length := fun o ho => by rw [hos o ho]; exact hi
      exact ⟨(sum_le_sum i os ls _ hl1 hi').1 (fun o d h => h.2), (sum_le_sum i os us _ hu1 hi').2 (fun o d h => h.2)⟩

/-- Three points on one axis. -/
noncomputable def axes3 : List Axis := [⟨3, 0, 1⟩]

/-- A small world: two potentials at 1 and 2 and an empty sum at 9. -/
noncomputable def sample : World where
  pots := fun a => if a = 1 then some ⟨[5, 2, 7], axes3⟩ else if a = 2 then some ⟨[1, 4, 3], axes3⟩ else none
  sums := fun a => if a = 9 then some Sum.new else none

/-- The sum at 9 with the two potentials. -/
noncomputable def sampleSum : World :=
  { sample with sums := put sample.sums 9 (some { n := 2, O := [1, 2] ++ List.replicate 14 0, points := 3 }) }

/-- The hypotheses of C306 are met by a sum of two potentials with three points. -/
example : Members sampleSum 9 [1, 2] ∧ Living sampleSum [1, 2] [⟨[5, 2, 7], axes3⟩, ⟨[1, 4, 3], axes3⟩] ∧
    valueAt [⟨[5, 2, 7], axes3⟩, ⟨[1, 4, 3], axes3⟩] 1 = 6 := by
  refine ⟨rep_members (q := { n := 2, O := [1, 2] ++ List.replicate 14 0, points := 3 }) rfl
    ⟨rfl, by decide, rfl⟩, ?_, ?_⟩
  · exact .cons ⟨by decide, rfl⟩ (.cons ⟨by decide, rfl⟩ .nil)
  · norm_num [valueAt]

/-! ### C307 -/

/-- The operators taken when `acc` are members already. -/
def takenFrom (len : Nat → Nat) (acc ps : List Nat) : List Nat :=
  match acc with
  | [] => wanted len ps
  | f :: l => (ps.filter (fun p => p ≠ 0 ∧ len p = len f)).take (16 - (f :: l).length)

theorem takenFrom_nil_cons (len : Nat → Nat) (p : Nat) (l : List Nat) (hp : p ≠ 0) :
    takenFrom len [] (p :: l) = p :: takenFrom len [p] l := by
  simp only [takenFrom, wanted]
  rw [List.filter_cons_of_pos (by simpa using hp)]
  simp only
  rw [List.filter_cons_of_pos (by simp)]
  simp only [List.filter_filter, List.length_singleton]
  show List.take (15 + 1) (p :: _) = p :: List.take 15 _
  rw [List.take_succ_cons]
  congr 2
  apply List.filter_congr
  intro x _
  simp [and_comm]

theorem addAll_taken (len : Nat → Nat) (s : Nat) (ps : List Nat) : ∀ (w : World) (q : Sum) (acc : List Nat),
    w.sums s = some q → Rep q acc →
    (∀ f l, acc = f :: l → q.points = len f) → (acc = [] → q.points = 0) →
    (∀ p ∈ acc, 0 < len p) →
    (∀ p ∈ ps, p ≠ 0 → ∃ o, w.pots p = some o ∧ o.vals.length = len p ∧ 0 < len p) →
    ∃ w' q', addAll w s ps = some (w', takenFrom len acc ps) ∧ w'.sums s = some q' ∧
      Rep q' (acc ++ takenFrom len acc ps) ∧ w'.pots = w.pots ∧
      (∀ f l, acc ++ takenFrom len acc ps = f :: l → q'.points = len f) ∧
      (acc ++ takenFrom len acc ps = [] → q'.points = 0) := by
  induction ps with
  | nil =>
    intro w q acc hq hr hp1 hp2 _ _
    have ht : takenFrom len acc [] = [] := by cases acc <;> simp [takenFrom, wanted]
    rw [ht, List.append_nil]
    exact ⟨w, q, rfl, hq, hr, rfl, hp1, hp2⟩
  | cons p l ih =>
    intro w q acc hq hr hp1 hp2 hacc hps
    have hps' : ∀ p ∈ l, p ≠ 0 → ∃ o, w.pots p = some o ∧ o.vals.length = len p ∧ 0 < len p :=
      fun p hp => hps p (List.mem_cons_of_mem _ hp)
    -- refused: nothing changes
    have refused : add w s p = .threw w → takenFrom len acc (p :: l) = takenFrom len acc l →
        ∃ w' q', addAll w s (p :: l) = some (w', takenFrom len acc (p :: l)) ∧ w'.sums s = some q' ∧
          Rep q' (acc ++ takenFrom len acc (p :: l)) ∧ w'.pots = w.pots ∧
          (∀ f m, acc ++ takenFrom len acc (p :: l) = f :: m → q'.points = len f) ∧
          (acc ++ takenFrom len acc (p :: l) = [] → q'.points = 0) := by
      intro ha ht
      obtain ⟨w', q', h1, h2⟩ := ih w q acc hq hr hp1 hp2 hacc hps'
      rw [ht]
      refine ⟨w', q', ?_, h2⟩
      simp only [addAll, ha]
      exact h1
    by_cases h16 : q.n ≥ 16
    · refine refused ?_ ?_
      · simp only [add, hq]; rw [if_pos h16]
      · rw [hr.1] at h16
        cases acc with
        | nil => simp at h16
        | cons f m => simp only [takenFrom]; rw [Nat.sub_eq_zero_of_le h16, List.take_zero, List.take_zero]
    · by_cases hp0 : p = 0
      · refine refused ?_ ?_
        · simp only [add, hq]; rw [if_neg h16, if_pos hp0]
        · subst hp0
          cases acc <;> simp [takenFrom, wanted]
      · obtain ⟨o, ho, hlen, hpos⟩ := hps p List.mem_cons_self hp0
        have h16' : acc.length < 16 := by rw [← hr.1]; omega
        have accepted : (if q.points = 0 then o.vals.length else q.points) = len p →
            (∀ f m, acc ++ [p] = f :: m → len p = len f) →
            takenFrom len acc (p :: l) = p :: takenFrom len (acc ++ [p]) l →
            ∃ w' q', addAll w s (p :: l) = some (w', takenFrom len acc (p :: l)) ∧ w'.sums s = some q' ∧
              Rep q' (acc ++ takenFrom len acc (p :: l)) ∧ w'.pots = w.pots ∧
              (∀ f m, acc ++ takenFrom len acc (p :: l) = f :: m → q'.points = len f) ∧
              (acc ++ takenFrom len acc (p :: l) = [] → q'.points = 0) := by
          intro hpts hf ht
          have ha : add w s p = .ok { w with sums := put w.sums s (some { n := q.n + 1, O := q.O.set q.n p, points := len p }) } := by
            simp only [add, hq]
            rw [if_neg h16, if_neg hp0, ho]
            simp only
            rw [hpts, if_neg (by rw [hlen]; exact fun h => h rfl)]
          obtain ⟨w', q', h1, h2, h3, h4, h5, h6⟩ := ih
            { w with sums := put w.sums s (some { n := q.n + 1, O := q.O.set q.n p, points := len p }) }
            { n := q.n + 1, O := q.O.set q.n p, points := len p } (acc ++ [p]) (put_same _ _ _)
            (rep_append hr h16' p (len p)) hf (by simp)
            (by intro x hx
                rcases List.mem_append.1 hx with hx | hx
                · exact hacc x hx
                · rw [List.mem_singleton.1 hx]; exact hpos) hps'
          rw [ht]
          refine ⟨w', q', ?_, h2, by simpa using h3, h4, by simpa using h5, by simp⟩
          simp only [addAll, ha, h1, Option.map_some]
        cases acc with
        | nil =>
          refine accepted ?_ ?_ ?_
          · rw [if_pos (hp2 rfl), hlen]
          · intro f m h
            simp at h
            rw [h.1]
          · exact takenFrom_nil_cons len p l hp0
        | cons f m =>
          have hpf := hp1 f m rfl
          have hf0 := hacc f List.mem_cons_self
          have hpts : (if q.points = 0 then o.vals.length else q.points) = len f := by
            rw [if_neg (by omega), hpf]
          by_cases hlf : len p = len f
          · refine accepted (by rw [hpts, hlf]) ?_ ?_
            · intro f' m' h
              simp at h
              rw [← h.1, hlf]
            · simp only [takenFrom, List.cons_append]
              rw [List.filter_cons_of_pos (by simp [hp0, hlf])]
              obtain ⟨k, hk⟩ : ∃ k, 16 - (f :: m).length = k + 1 := ⟨15 - (f :: m).length, by omega⟩
              have hk' : 16 - (f :: (m ++ [p])).length = k := by simp at hk ⊢; omega
              rw [hk, hk', List.take_succ_cons]
          · refine refused ?_ ?_
            · simp only [add, hq]
              rw [if_neg h16, if_neg hp0, ho]
              simp only
              rw [hpts, if_pos (by rw [hlen]; exact hlf)]
              have : ({ q with points := len f } : Sum) = q := by rw [← hpf]
              rw [this]
              have : put w.sums s (some q) = w.sums := by
                funext b
                unfold put
                by_cases hb : b = s
                · rw [if_pos hb, hb, hq]
                · rw [if_neg hb]
              rw [this]
            · simp only [takenFrom]
              rw [List.filter_cons_of_neg (by simp [hlf])]

/-- `Add` takes exactly the operators with as many points as the first one, up to sixteen, and reports all others; `Size`
and `Get` give the ones taken in order, and `Get` reports numbers from `Size` on.  Operators without points and negative
numbers for `Get` are missing. -/
theorem C307_partial (w : World) (s : Nat) (ps : List Nat) (len : Nat → Nat) (hs : w.sums s = some Sum.new)
    (hps : ∀ p ∈ ps, p ≠ 0 → ∃ o, w.pots p = some o ∧ o.vals.length = len p ∧ 0 < len p) :
    ∃ w', addAll w s ps = some (w', wanted len ps) ∧ Members w' s (wanted len ps) ∧ w'.pots = w.pots ∧
      ∀ i : Int, i ≥ (wanted len ps).length → get w' s i = .threw := by
  obtain ⟨w', q', h1, h2, h3, h4, _, _⟩ := addAll_taken len s ps w Sum.new [] hs rep_new (by simp) (fun _ => rfl) (by simp) hps
  refine ⟨w', h1, rep_members h2 h3, h4, ?_⟩
  intro i hi
  simp only [get, h2]
  have h5 : q'.n = (wanted len ps).length := h3.1
  rw [if_pos (by rw [h5]; exact hi)]

/-- Of a null pointer, two potentials with three points and the second one again, the sum takes three. -/
example : sample.sums 9 = some Sum.new ∧ wanted (fun _ => 3) [0, 1, 2, 2] = [1, 2, 2] ∧
    ∀ p ∈ [0, 1, 2, 2], p ≠ 0 → ∃ o, sample.pots p = some o ∧ o.vals.length = 3 ∧ 0 < 3 := by
  refine ⟨rfl, by decide, ?_⟩
  intro p hp h0
  simp at hp
  rcases hp with rfl | rfl | rfl
  · exact absurd rfl h0
  · exact ⟨_, rfl, rfl, by decide⟩
  · exact ⟨_, rfl, rfl, by decide⟩

/-- `Get` with a negative number is not reported but reads outside of the array. -/
theorem C307_violated_negative (w : World) (s : Nat) (q : Sum) (hs : w.sums s = some q) (i : Int) (hi : i < 0) :
    get w s i = .ub := by
  simp only [get, hs]
  rw [if_neg (by omega), if_pos hi]

/-- If the first operator has no points, an operator with any other number of points is taken after it. -/
theorem C307_violated_empty (w : World) (s p p' : Nat) (o o' : Pot) (hs : w.sums s = some Sum.new) (hp : p ≠ 0)
    (hp' : p' ≠ 0) (ho : w.pots p = some o) (ho' : w.pots p' = some o') (he : o.vals = []) :
    ∃ w', addAll w s [p, p'] = some (w', [p, p']) ∧ Members w' s [p, p'] := by
  have h1 : add w s p = .ok { w with sums := put w.sums s (some { n := 1, O := p :: List.replicate 15 0, points := 0 }) } := by
    simp only [add, hs]
    rw [if_neg (by decide), if_neg hp, ho]
    simp only [he]
    rfl
  have h2 : add { w with sums := put w.sums s (some { n := 1, O := p :: List.replicate 15 0, points := 0 }) } s p' =
      .ok { w with sums := (put (put w.sums s (some { n := 1, O := p :: List.replicate 15 0, points := 0 })) s
        (some { n := 2, O := p :: p' :: List.replicate 14 0, points := o'.vals.length })) } := by
    simp only [add, put_same]
    rw [if_neg (by decide), if_neg hp', ho']
    simp only [if_true]
    rw [if_neg (fun h => h rfl)]
    rfl
  have h3 : addAll w s [p, p'] = some (({ w with sums := (put (put w.sums s (some { n := 1, O := p :: List.replicate 15 0, points := 0 })) s
        (some { n := 2, O := p :: p' :: List.replicate 14 0, points := o'.vals.length })) } : World), [p, p']) := by
    simp only [addAll, h1, h2, Option.map_some]
  exact ⟨_, h3, rep_members (q := { n := 2, O := p :: p' :: List.replicate 14 0, points := o'.vals.length })
    (if_pos rfl) ⟨rfl, by simp, rfl⟩⟩

/-! ### C308 -/

/-- A sum built with `Add` accepts a wave function exactly if it has a member and the wave function has as many points as
the members.  The comparison of the grids is missing. -/
theorem C308_partial (w w' : World) (s : Nat) (ps taken : List Nat) (len : Nat → Nat) (psi : Wf)
    (hs : w.sums s = some Sum.new)
    (hps : ∀ p ∈ ps, p ≠ 0 → ∃ o, w.pots p = some o ∧ o.vals.length = len p ∧ 0 < len p)
    (ha : addAll w s ps = some (w', taken)) :
    (taken ≠ [] ∧ (∀ p ∈ taken, len p = psi.points) → init w' s psi = .ok w') ∧
    (¬ (taken ≠ [] ∧ ∀ p ∈ taken, len p = psi.points) → init w' s psi = .threw w') := by
  obtain ⟨w'', q', h1, h2, h3, h4, h5, h6⟩ :=
    addAll_taken len s ps w Sum.new [] hs rep_new (by simp) (fun _ => rfl) (by simp) hps
  rw [ha] at h1
  have h1' := Option.some.inj h1
  have hw : w' = w'' := congrArg Prod.fst h1'
  have ht : taken = wanted len ps := congrArg Prod.snd h1'
  rw [← hw] at h2
  have h3 : Rep q' taken := by rw [ht]; exact h3
  have h5 : ∀ f l, taken = f :: l → q'.points = len f := by rw [ht]; exact h5
  have hall : ∀ f l, taken = f :: l → ∀ p ∈ taken, len p = len f := by
    intro f l hfl p hp
    have hfl' := hfl
    rw [ht] at hp hfl
    unfold wanted at hp hfl
    cases hw : ps.filter (fun p => p ≠ 0) with
    | nil => rw [hw] at hp; simp at hp
    | cons g m =>
      rw [hw] at hp hfl
      simp only at hp hfl
      have hg : ∀ x ∈ ((g :: m).filter (fun p => len p = len g)).take 16, len x = len g := by
        intro x hx
        have := (List.mem_filter.1 (List.mem_of_mem_take hx)).2
        simpa using this
      rw [hg p hp, hg f (by rw [hfl]; exact List.mem_cons_self)]
  cases htk : taken with
  | nil =>
    have hn : q'.n = 0 := by rw [h3.1, htk]; rfl
    refine ⟨fun h => absurd rfl h.1, fun _ => ?_⟩
    simp only [init, h2, hn, if_true]
  | cons f l =>
    have hn : q'.n ≠ 0 := by rw [h3.1, htk]; simp
    have hp := h5 f l htk
    constructor
    · intro h
      simp only [init, h2]
      rw [if_neg hn, if_neg]
      rw [hp, h.2 f List.mem_cons_self]
      exact fun h => h rfl
    · intro h
      simp only [init, h2]
      rw [if_neg hn, if_pos]
      intro hpp
      refine h ⟨by simp, ?_⟩
      intro p hpm
      rw [hall f l htk p (by rw [htk]; exact hpm), ← hp, hpp]

/-- A sum accepts every wave function with the right number of points, although its member refuses it because the grids
differ. -/
theorem C308_violated (w : World) (s p : Nat) (o : Pot) (psi : Wf) (hs : w.sums s = some Sum.new) (hp : p ≠ 0)
    (ho : w.pots p = some o) (hpos : 0 < o.vals.length) (hn : psi.points = o.vals.length)
    (hg : psi.axes.length ≠ o.axes.length ∨
      ∃ (i : Nat) (h : i < o.axes.length) (h' : i < psi.axes.length), (o.axes[i]).size ≠ (psi.axes[i]).size) :
    ∃ w', addAll w s [p] = some (w', [p]) ∧ init w' s psi = .ok w' ∧ initPot w' p psi = .threw w' := by
  have hne : ∀ (a b : List Axis), (b.length ≠ a.length ∨
      ∃ (i : Nat) (h : i < a.length) (h' : i < b.length), (a[i]).size ≠ (b[i]).size) → sameAxes a b = false := by
    intro a
    induction a with
    | nil =>
      intro b h
      cases b with
      | nil => rcases h with h | ⟨i, h, _⟩
               · exact absurd rfl h
               · exact absurd h (Nat.not_lt_zero _)
      | cons _ _ => rfl
    | cons x a ih =>
      intro b h
      cases b with
      | nil => rfl
      | cons y b =>
        unfold sameAxes
        by_cases hc : x.size ≠ y.size ∨ |x.xmin - y.xmin| > 1 / 10 ^ 10 ∨ |x.xmax - y.xmax| > 1 / 10 ^ 10
        · rw [if_pos hc]
        · rw [if_neg hc]
          apply ih
          rcases h with h | ⟨i, h1, h2, h3⟩
          · left; simpa using h
          · right
            cases i with
            | zero => exact absurd (Or.inl h3) hc
            | succ i => exact ⟨i, by simpa using h1, by simpa using h2, by simpa using h3⟩
  have hps : ∀ x ∈ [p], x ≠ 0 → ∃ o', w.pots x = some o' ∧ o'.vals.length = (fun _ => o.vals.length) x ∧ 0 < (fun _ => o.vals.length) x := by
    intro x hx _
    rw [List.mem_singleton.1 hx]
    exact ⟨o, ho, rfl, hpos⟩
  obtain ⟨w', h1, _, h3, _⟩ := C307_partial w s [p] (fun _ => o.vals.length) hs hps
  have hw : wanted (fun _ => o.vals.length) [p] = [p] := by simp [wanted, hp]
  rw [hw] at h1
  refine ⟨w', h1, ?_, ?_⟩
  · exact (C308_partial w w' s [p] [p] (fun _ => o.vals.length) psi hs hps h1).1 ⟨by simp, fun _ _ => hn.symm⟩
  · simp only [initPot, h3, ho]
    rw [if_pos (hne o.axes psi.axes hg)]

/-- Six points on one axis and a wave function on a grid of two times three points. -/
example : ∃ (w : World) (o : Pot) (psi : Wf), w.sums 9 = some Sum.new ∧ w.pots 1 = some o ∧ 0 < o.vals.length ∧
    psi.points = o.vals.length ∧ psi.axes.length ≠ o.axes.length :=
  ⟨⟨fun _ => some ⟨[1, 2, 3, 4, 5, 6], [⟨6, 0, 1⟩]⟩, fun _ => some Sum.new⟩, ⟨[1, 2, 3, 4, 5, 6], [⟨6, 0, 1⟩]⟩,
    ⟨6, [⟨2, 0, 1⟩, ⟨3, 0, 1⟩]⟩, rfl, rfl, by simp, rfl, by simp⟩

/-! ### C309 -/

/-- Right after the copy, copy and original answer as the original did, and all other sums are as before. -/
theorem C309_partial (w : World) (d s : Nat) (qd qs : Sum) (hd : w.sums d = some qd) (hs : w.sums s = some qs) :
    ∃ w', copy w d s = .ok w' ∧ w'.pots = w.pots ∧
      (∀ t, t = d ∨ t = s → size w' t = size w s ∧ (∀ i, get w' t i = get w s i) ∧ emin w' t = emin w s ∧
        emax w' t = emax w s ∧ ∀ psi, (init w' t psi = .ok w' ↔ init w s psi = .ok w)) ∧
      (∀ t, t ≠ d → w'.sums t = w.sums t) := by
  refine ⟨{ w with sums := put w.sums d (some qs) }, ?_, rfl, ?_, fun t ht => put_other _ _ _ _ ht⟩
  · simp only [copy, hd, hs]
  · intro t ht
    have h1 : put w.sums d (some qs) t = some qs := by
      rcases ht with rfl | rfl
      · exact put_same _ _ _
      · by_cases h : t = d
        · rw [h]; exact put_same _ _ _
        · rw [put_other _ _ _ _ h, hs]
    refine ⟨?_, ?_, ?_, ?_, ?_⟩
    · simp only [size, h1, hs]
    · intro i; simp only [get, h1, hs]
    · simp only [emin, h1, hs]; rfl
    · simp only [emax, h1, hs]; rfl
    · intro psi
      simp only [init, h1, hs]
      by_cases h0 : qs.n = 0
      · simp [h0]
      · by_cases h2 : qs.points ≠ psi.points
        · simp [h0, h2]
        · simp [h0, h2]

/-- Invariant of careful executions: members live, no operator is in two sums. -/
def Good (w : World) : Prop :=
  (∀ s q, w.sums s = some q → ∃ ps, Rep q ps ∧ ∀ p ∈ ps, p ≠ 0 ∧ (w.pots p).isSome) ∧
  (∀ s t q r ps rs, w.sums s = some q → w.sums t = some r → s ≠ t → Rep q ps → Rep r rs → ∀ p ∈ ps, p ∉ rs)

theorem rep_unique {q : Sum} {ps qs : List Nat} (h : Rep q ps) (h' : Rep q qs) : ps = qs := by
  have hl : ps.length = qs.length := by rw [← h.1, h'.1]
  have h1 := h.2.2
  rw [h'.2.2, hl] at h1
  exact (List.append_inj_left h1 hl.symm).symm

theorem careful_good {w : World} (h : Careful w) : Good w := by
  induction h with
  | start =>
    constructor
    · intro s q h; cases h
    · intro s t q r ps rs h; cases h
  | @pot w _ a o ha hf hn ih =>
    refine ⟨?_, ih.2⟩
    intro s q hq
    obtain ⟨ps, h1, h2⟩ := ih.1 s q hq
    refine ⟨ps, h1, fun p hp => ⟨(h2 p hp).1, ?_⟩⟩
    show (put w.pots a (some o) p).isSome
    by_cases hpa : p = a
    · rw [hpa, put_same]; rfl
    · rw [put_other _ _ _ _ hpa]; exact (h2 p hp).2
  | @sum w _ a ha hf hn ih =>
    constructor
    · intro s q hq
      change put w.sums a (some Sum.new) s = some q at hq
      by_cases hsa : s = a
      · rw [hsa, put_same] at hq
        cases hq
        exact ⟨[], rep_new, by simp⟩
      · rw [put_other _ _ _ _ hsa] at hq
        exact ih.1 s q hq
    · intro s t q r ps rs hq hr hst hps hrs p hp hpr
      change put w.sums a (some Sum.new) s = some q at hq
      change put w.sums a (some Sum.new) t = some r at hr
      by_cases hsa : s = a
      · rw [hsa, put_same] at hq
        cases hq
        rw [rep_unique hps rep_new] at hp
        cases hp
      · by_cases hta : t = a
        · rw [hta, put_same] at hr
          cases hr
          rw [rep_unique hrs rep_new] at hpr
          cases hpr
        · rw [put_other _ _ _ _ hsa] at hq
          rw [put_other _ _ _ _ hta] at hr
          exact ih.2 s t q r ps rs hq hr hst hps hrs p hp hpr
  | @add w w' _ s p hp hr ih =>
    -- either only the number of points of the sum changes, or the operator is appended
    have key : w' = w ∨ ∃ q pts, w.sums s = some q ∧ (w' = { w with sums := put w.sums s (some { q with points := pts }) } ∨
        (q.n < 16 ∧ p ≠ 0 ∧ (w.pots p).isSome ∧
          w' = { w with sums := put w.sums s (some { n := q.n + 1, O := q.O.set q.n p, points := pts }) })) := by
      cases hq : w.sums s with
      | none => simp only [add, hq] at hr; rcases hr with hr | hr <;> cases hr
      | some q =>
        simp only [add, hq] at hr
        by_cases h16 : q.n ≥ 16
        · rw [if_pos h16] at hr
          left; rcases hr with hr | hr <;> cases hr; rfl
        · rw [if_neg h16] at hr
          by_cases hp0 : p = 0
          · rw [if_pos hp0] at hr
            left; rcases hr with hr | hr <;> cases hr; rfl
          · rw [if_neg hp0] at hr
            cases ho : w.pots p with
            | none => rw [ho] at hr; rcases hr with hr | hr <;> cases hr
            | some o =>
              rw [ho] at hr
              simp only at hr
              right
              refine ⟨q, if q.points = 0 then o.vals.length else q.points, rfl, ?_⟩
              by_cases hl : o.vals.length ≠ (if q.points = 0 then o.vals.length else q.points)
              · rw [if_pos hl] at hr
                left; rcases hr with hr | hr <;> cases hr; rfl
              · rw [if_neg hl] at hr
                right; rcases hr with hr | hr <;> cases hr
                exact ⟨by omega, hp0, rfl, rfl⟩
    rcases key with rfl | ⟨q, pts, hq, rfl | ⟨hn, hp0, hlive, rfl⟩⟩
    · exact ih
    · have hrep : ∀ ps, Rep { q with points := pts } ps ↔ Rep q ps := fun ps => Iff.rfl
      constructor
      · intro t r hr
        change put w.sums s _ t = some r at hr
        by_cases hts : t = s
        · rw [hts, put_same] at hr
          cases hr
          exact ih.1 s q hq
        · rw [put_other _ _ _ _ hts] at hr
          exact ih.1 t r hr
      · intro t u r v ps rs hr hv htu hps hrs
        change put w.sums s _ t = some r at hr
        change put w.sums s _ u = some v at hv
        by_cases hts : t = s
        · rw [hts, put_same] at hr
          cases hr
          rw [put_other _ _ _ _ (fun h => htu (hts.trans h.symm))] at hv
          exact ih.2 s u q v ps rs hq hv (fun h => htu (hts.trans h)) hps hrs
        · rw [put_other _ _ _ _ hts] at hr
          by_cases hus : u = s
          · rw [hus, put_same] at hv
            cases hv
            exact ih.2 t s r q ps rs hr hq hts hps hrs
          · rw [put_other _ _ _ _ hus] at hv
            exact ih.2 t u r v ps rs hr hv htu hps hrs
    · obtain ⟨ms, hms, hlv⟩ := ih.1 s q hq
      have happ := rep_append hms (by rw [← hms.1]; exact hn) p pts
      have hnot : ∀ t r rs, w.sums t = some r → Rep r rs → p ∉ rs := by
        intro t r rs hr hrs hmem
        obtain ⟨i, hi, he⟩ := List.getElem_of_mem hmem
        exact hp t i (by rw [rep_get hr hrs i hi, he])
      constructor
      · intro t r hr
        change put w.sums s _ t = some r at hr
        by_cases hts : t = s
        · rw [hts, put_same] at hr
          cases hr
          refine ⟨ms ++ [p], happ, ?_⟩
          intro x hx
          rcases List.mem_append.1 hx with hx | hx
          · exact hlv x hx
          · rw [List.mem_singleton.1 hx]; exact ⟨hp0, hlive⟩
        · rw [put_other _ _ _ _ hts] at hr
          exact ih.1 t r hr
      · intro t u r v ps rs hr hv htu hps hrs x hx hxr
        change put w.sums s _ t = some r at hr
        change put w.sums s _ u = some v at hv
        by_cases hts : t = s
        · rw [hts, put_same] at hr
          cases hr
          rw [put_other _ _ _ _ (fun h => htu (hts.trans h.symm))] at hv
          rw [rep_unique hps happ] at hx
          rcases List.mem_append.1 hx with hx | hx
          · exact ih.2 s u q v ms rs hq hv (fun h => htu (hts.trans h)) hms hrs x hx hxr
          · rw [List.mem_singleton.1 hx] at hxr
            exact hnot u v rs hv hrs hxr
        · rw [put_other _ _ _ _ hts] at hr
          by_cases hus : u = s
          · rw [hus, put_same] at hv
            cases hv
            rw [rep_unique hrs happ] at hxr
            rcases List.mem_append.1 hxr with hxr | hxr
            · exact ih.2 t s r q ps ms hr hq hts hps hms x hx hxr
            · rw [List.mem_singleton.1 hxr] at hx
              exact hnot t r ps hr hps hx
          · rw [put_other _ _ _ _ hus] at hv
            exact ih.2 t u r v ps rs hr hv htu hps hrs x hx hxr
  | @delete w _ s ih =>
    cases hq : w.sums s with
    | none =>
      have : deleteSum w s = w := by simp only [deleteSum, hq]
      rw [this]; exact ih
    | some q =>
      obtain ⟨ms, hms, hlv⟩ := ih.1 s q hq
      constructor
      · intro t r hr
        rw [deleteSum_sums hq] at hr
        by_cases hts : t = s
        · rw [hts, put_same] at hr; cases hr
        · rw [put_other _ _ _ _ hts] at hr
          obtain ⟨ps, h1, h2⟩ := ih.1 t r hr
          refine ⟨ps, h1, fun p hp => ⟨(h2 p hp).1, ?_⟩⟩
          rw [deleteSum_pots hq, if_neg]
          · exact (h2 p hp).2
          · intro h
            exact ih.2 t s r q ps ms hr hq hts h1 hms p hp ((rep_mem hms p h.1).1 h.2)
      · intro t u r v ps rs hr hv htu
        rw [deleteSum_sums hq] at hr hv
        by_cases hts : t = s
        · rw [hts, put_same] at hr; cases hr
        · by_cases hus : u = s
          · rw [hus, put_same] at hv; cases hv
          · rw [put_other _ _ _ _ hts] at hr
            rw [put_other _ _ _ _ hus] at hv
            exact ih.2 t u r v ps rs hr hv htu

/-- Without copies, and with every operator in at most one sum: all members of a living sum live, and deleting a sum
destroys exactly its members and no other sum.  Copies are missing. -/
theorem C309_delete_partial (w : World) (h : Careful w) :
    (∀ s i a, get w s i = .val a → a ≠ 0 ∧ (w.pots a).isSome) ∧
    (∀ s ps, Members w s ps → (∀ a, (deleteSum w s).pots a = if a ∈ ps then none else w.pots a) ∧
      ∀ t, (deleteSum w s).sums t = if t = s then none else w.sums t) := by
  have hg := careful_good h
  constructor
  · intro s i a ha
    cases hq : w.sums s with
    | none => simp only [get, hq] at ha; cases ha
    | some q =>
      obtain ⟨ps, h1, h2⟩ := hg.1 s q hq
      have hi : 0 ≤ i ∧ i < q.n := by
        simp only [get, hq] at ha
        by_cases hi : i ≥ q.n
        · rw [if_pos hi] at ha; cases ha
        · by_cases hi' : i < 0
          · rw [if_neg hi, if_pos hi'] at ha; cases ha
          · omega
      obtain ⟨k, rfl⟩ := Int.eq_ofNat_of_zero_le hi.1
      have hk : k < ps.length := by have := hi.2; rw [h1.1] at this; exact_mod_cast this
      rw [rep_get hq h1 k hk] at ha
      cases ha
      exact h2 _ (List.getElem_mem _)
  · intro s ps hm
    obtain ⟨q, hq, _, _⟩ := members_O hm
    obtain ⟨ms, h1, h2⟩ := hg.1 s q hq
    have : ps = ms := members_unique hm (rep_members hq h1)
    subst this
    constructor
    · intro a
      rw [deleteSum_pots hq]
      by_cases ha : a ∈ ps
      · rw [if_pos ha, if_pos ⟨(h2 a ha).1, (rep_mem h1 a (h2 a ha).1).2 ha⟩]
      · rw [if_neg ha, if_neg (fun h => ha ((rep_mem h1 a h.1).1 h.2))]
    · intro t
      rw [deleteSum_sums hq]
      rfl

/-- A careful execution with a sum of one potential. -/
example : ∃ w, Careful w ∧ Members w 9 [1] ∧ (w.pots 1).isSome := by
  have h0 := Careful.start
  have h1 := h0.pot 1 ⟨[5, 2, 7], axes3⟩ (by decide) rfl rfl
  have h2 := h1.sum 9 (by decide) rfl rfl
  refine ⟨_, h2.add (w' := { pots := _, sums := put _ 9 (some { n := 1, O := 1 :: List.replicate 15 0, points := 3 }) })
    9 1 ?_ (Or.inl rfl),
    rep_members (q := { n := 1, O := 1 :: List.replicate 15 0, points := 3 }) rfl ⟨rfl, by simp, rfl⟩, rfl⟩
  intro t i hi
  by_cases ht : t = 9
  · subst ht
    simp only [get, newSum, put_same, Sum.new] at hi
    by_cases h : i ≥ ((0 : Nat) : Int)
    · rw [if_pos h] at hi; cases hi
    · rw [if_neg h, if_pos (by omega)] at hi; cases hi
  · simp only [get, newSum, put_other _ _ _ _ ht, newPot] at hi
    cases hi

/-- The copy of a sum cannot be used after the original is deleted: it still has the same members, but asking it for its
energy bounds uses a destroyed operator. -/
theorem C309_violated (w w' : World) (d s a : Nat) (hds : d ≠ s) (ha : a ≠ 0) (h0 : get w s 0 = .val a)
    (hc : copy w d s = .ok w') :
    (∀ i, get (deleteSum w' s) d i = get w s i) ∧ (deleteSum w' s).pots a = none ∧
    emin (deleteSum w' s) d = .ub ∧ emax (deleteSum w' s) d = .ub := by
  cases hqs : w.sums s with
  | none => simp only [get, hqs] at h0; cases h0
  | some q =>
    cases hqd : w.sums d with
    | none => simp only [copy, hqd] at hc; cases hc
    | some qd =>
      simp only [copy, hqd, hqs] at hc
      cases hc
      have hs' : put w.sums d (some q) s = some q := by rw [put_other _ _ _ _ (Ne.symm hds)]; exact hqs
      have hn : q.n ≠ 0 := by
        intro hn
        simp only [get, hqs] at h0
        rw [if_pos (by rw [hn]; exact le_refl _)] at h0
        cases h0
      have hO : q.O[0]? = some a := by
        simp only [get, hqs] at h0
        rw [if_neg (by omega), if_neg (by omega)] at h0
        cases ho : q.O[0]? with
        | none => simp [ho] at h0
        | some b => simp [ho] at h0; rw [h0]
      have hmem : a ∈ q.O := List.mem_of_getElem? hO
      have hsum : (deleteSum { w with sums := put w.sums d (some q) } s).sums d = some q := by
        rw [deleteSum_sums (q := q) hs', put_other _ _ _ _ hds]
        exact put_same _ _ _
      have hpot : (deleteSum { w with sums := put w.sums d (some q) } s).pots a = none := by
        rw [deleteSum_pots (q := q) hs', if_pos ⟨ha, hmem⟩]
      have hE : ∀ f, sumE (deleteSum { w with sums := put w.sums d (some q) } s) f q.O q.n = none := by
        intro f
        have hm : memberE (deleteSum { w with sums := put w.sums d (some q) } s) f q.O 0 = none := by
          simp only [memberE, hO]
          rw [if_neg ha, hpot]
        unfold sumE
        have : ∀ k, loop (k + 1) (fun i d' => (memberE (deleteSum { w with sums := put w.sums d (some q) } s) f q.O i).map
            (fun e => d' + e)) (0 : ℝ) = none := by
          intro k
          induction k with
          | zero => simp [loop, hm]
          | succ k ih => rw [loop, ih]; rfl
        obtain ⟨k, hk⟩ := Nat.exists_eq_succ_of_ne_zero hn
        rw [hk]
        exact this k
      refine ⟨?_, hpot, ?_, ?_⟩
      · intro i
        simp only [get, hsum, hqs]
      · simp only [emin, hsum, hE]
        rw [if_neg hn]
      · simp only [emax, hsum, hE]
        rw [if_neg hn]

/-- Deleting the copy after the original can destroy an operator that was never added to any of them: a new one that got the
address of a former member. -/
theorem C309_violated_other (w w' : World) (d s a : Nat) (o : Pot) (hds : d ≠ s) (ha : a ≠ 0)
    (h0 : get w s 0 = .val a) (hc : copy w d s = .ok w') :
    (deleteSum w' s).pots a = none ∧
    (newPot (deleteSum w' s) a o).pots a = some o ∧
    (deleteSum (newPot (deleteSum w' s) a o) d).pots a = none := by
  obtain ⟨h1, h2, _, _⟩ := C309_violated w w' d s a hds ha h0 hc
  refine ⟨h2, put_same _ _ _, ?_⟩
  have hg : get (deleteSum w' s) d 0 = .val a := by rw [h1, h0]
  cases hq : (deleteSum w' s).sums d with
  | none => simp only [get, hq] at hg; cases hg
  | some q =>
    have hO : a ∈ q.O := by
      simp only [get, hq] at hg
      by_cases hn : (0 : Int) ≥ q.n
      · rw [if_pos hn] at hg; cases hg
      · rw [if_neg hn, if_neg (by omega)] at hg
        cases ho : q.O[0]? with
        | none => simp [ho] at hg
        | some b => simp [ho] at hg; rw [← hg]; exact List.mem_of_getElem? ho
    rw [deleteSum_pots (q := q) (by exact hq), if_pos ⟨ha, hO⟩]

/-- Copying to a sum that has members of its own: they are never deleted, not even with both sums. -/
theorem C309_violated_leak (w w' : World) (d s a : Nat) (q : Sum) (o : Pot) (hs : w.sums s = some q) (hds : d ≠ s)
    (i : Int) (_hi : get w d i = .val a) (ha : a ∉ q.O) (ho : w.pots a = some o) (hc : copy w d s = .ok w') :
    (∀ j, get w' d j ≠ .val a) ∧ (deleteSum (deleteSum w' s) d).pots a = some o := by
  cases hqd : w.sums d with
  | none => simp only [copy, hqd] at hc; cases hc
  | some qd =>
    simp only [copy, hqd, hs] at hc
    cases hc
    constructor
    · intro j hj
      simp only [get, put_same] at hj
      by_cases h1 : j ≥ q.n
      · rw [if_pos h1] at hj; cases hj
      · by_cases h2 : j < 0
        · rw [if_neg h1, if_pos h2] at hj; cases hj
        · rw [if_neg h1, if_neg h2] at hj
          cases hoj : q.O[j.toNat]? with
          | none => simp [hoj] at hj
          | some b => simp [hoj] at hj; exact ha (by rw [← hj]; exact List.mem_of_getElem? hoj)
    · have hs' : put w.sums d (some q) s = some q := by rw [put_other _ _ _ _ (Ne.symm hds)]; exact hs
      have hsum : (deleteSum { w with sums := put w.sums d (some q) } s).sums d = some q := by
        rw [deleteSum_sums (q := q) hs', put_other _ _ _ _ hds]
        exact put_same _ _ _
      rw [deleteSum_pots hsum, if_neg (fun h => ha h.2), deleteSum_pots (q := q) hs', if_neg (fun h => ha h.2)]
      exact ho

/-- A sum with one potential, a second sum with another one: the hypotheses of the violations are met. -/
example : ∃ (w w' : World) (q : Sum) (o : Pot), w.sums 9 = some q ∧ get w 9 0 = .val 1 ∧ get w 8 0 = .val 2 ∧ 2 ∉ q.O ∧
    w.pots 2 = some o ∧ copy w 8 9 = .ok w' := by
  refine ⟨{ pots := sample.pots, sums := fun a => if a = 9 then some ⟨1, 1 :: List.replicate 15 0, 3⟩ else
    if a = 8 then some ⟨1, 2 :: List.replicate 15 0, 3⟩ else none }, _, ⟨1, 1 :: List.replicate 15 0, 3⟩, _, rfl, rfl, rfl,
    by decide, rfl, rfl⟩

/-- In the usual layout of objects (`Operator` part not at the beginning) deleting a sum, whether a copy or not and however
its members got into it, destroys neither the sum nor any member. -/
theorem C309_violated_layout (o : Nat) (ho : o ≠ 0) (w : World) (s a : Nat) (q : Sum) (p : Pot) (i : Int)
    (hs : w.sums s = some q) (hi : get w s i = .val a) (hp : w.pots a = some p) :
    (deleteOp o w s).sums s = some q ∧ get (deleteOp o w s) s i = .val a ∧ (deleteOp o w s).pots a = some p := by
  have h : deleteOp o w s = w := if_neg ho
  rw [h]
  exact ⟨hs, hi, hp⟩

/-- A sum with one member. -/
example : ∃ (w : World) (q : Sum) (p : Pot), w.sums 9 = some q ∧ get w 9 0 = .val 1 ∧ w.pots 1 = some p :=
  ⟨⟨fun a => if a = 1 then some ⟨[1], []⟩ else none, fun a => if a = 9 then some ⟨1, [1], 1⟩ else none⟩,
    ⟨1, [1], 1⟩, ⟨[1], []⟩, rfl, rfl, rfl⟩

end QDng.GSum
