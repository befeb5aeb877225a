import Verif.PLife.Spec

namespace QDng.PLife
open Common

variable {K : Type}

/-! ### Clocks of operators -/

theorem getD_scale (s : Option ℝ) (f : Field) : (setScale s f).scale = s.getD f.scale := by
  cases s <;> rfl

theorem get_setScale (W : World) (s : Option ℝ) (f : Field) (k : ℕ) (v : ℝ) (hc : f.clock = some k)
    (hv : f.vals[(W k).step]? = some v) : (setScale s f).get W = .val (v * s.getD f.scale) := by
  cases s <;> simp [setScale, Field.get, hc, hv]

mutual
theorem setClock_ok (W : World) (k : ℕ) : ∀ (o : Op), Fits (W k) o →
    ∃ o', o.setClock W (some k) = .ok o' ∧
      ∀ W' : World, SameClock (W' k) (W k) → (W' k).step < (W' k).steps → o'.fields W' = .val (drive (W' k) o)
  | .plain c h, _ => ⟨.plain (some k) h, rfl, fun _ _ _ => rfl⟩
  | .laser c (some g) s f, _ => by
    refine ⟨_, rfl, fun W' hs hl => ?_⟩
    have hl' : (W' k).step < (W k).steps := hs.2 ▸ hl
    have : (generate W k g f).vals[(W' k).step]? = some (g (W k).steps (W k).dt (W' k).step) := by
      simp [generate, hl']
    simp only [Op.fields]
    rw [get_setScale W' s (generate W k g f) k _ rfl this]
    simp [drive, generate, hs.1, hs.2]
  | .laser c none s f, hf => by
    have hf' : (W k).dt = f.dt ∧ (W k).steps ≤ f.vals.length := by simpa [Fits] using hf
    have hn : ¬ ((W k).dt ≠ f.dt ∨ f.vals.length < (W k).steps) := by
      rintro (h | h)
      · exact h hf'.1
      · omega
    refine ⟨.laser (some k) none s (setScale s { f with clock := some k }), ?_, fun W' hs hl => ?_⟩
    · simp only [Op.setClock, Field.setClock, if_neg hn]
    · have hl' : (W' k).step < f.vals.length := by have := hs.2; omega
      simp only [Op.fields]
      rw [get_setScale W' s { f with clock := some k } k _ rfl (List.getElem?_eq_getElem hl')]
      simp [drive, hl']
  | .many c ms, hf => by
    obtain ⟨ms', h1, h2⟩ := setClocks_ok W k ms (by simpa [Fits] using hf)
    refine ⟨.many (some k) ms', by simp only [Op.setClock, h1], fun W' hs hl => ?_⟩
    simp only [Op.fields, drive]
    exact h2 W' hs hl

theorem setClocks_ok (W : World) (k : ℕ) : ∀ (os : List Op), AllFit (W k) os →
    ∃ os', setClocks W (some k) os = .ok os' ∧
      ∀ W' : World, SameClock (W' k) (W k) → (W' k).step < (W' k).steps → allFields W' os' = .val (drives (W' k) os)
  | [], _ => ⟨[], rfl, fun _ _ _ => rfl⟩
  | o :: os, hf => by
    have hf' : Fits (W k) o ∧ AllFit (W k) os := by simpa [AllFit] using hf
    obtain ⟨o', h1, h2⟩ := setClock_ok W k o hf'.1
    obtain ⟨os', h3, h4⟩ := setClocks_ok W k os hf'.2
    refine ⟨o' :: os', by simp only [setClocks, h1, h3], fun W' hs hl => ?_⟩
    simp only [allFields, h2 W' hs hl, h4 W' hs hl, drives]
end

mutual
theorem fields_not_threw (W : World) : ∀ o : Op, o.fields W ≠ .threw
  | .plain _ _ => by simp [Op.fields]
  | .laser _ _ _ f => by
    simp only [Op.fields, Field.get]
    cases f.clock with
    | none => simp
    | some k => cases h : f.vals[(W k).step]? <;> simp [h]
  | .many _ ms => by
    simp only [Op.fields]
    exact allFields_not_threw W ms

theorem allFields_not_threw (W : World) : ∀ os : List Op, allFields W os ≠ .threw
  | [] => by simp [allFields]
  | o :: os => by
    have h1 := fields_not_threw W o
    have h2 := allFields_not_threw W os
    simp only [allFields]
    cases ho : o.fields W with
    | threw => exact absurd ho h1
    | ub => simp
    | val a =>
      cases hs : allFields W os with
      | threw => exact absurd hs h2
      | ub => simp
      | val b => simp
end

mutual
theorem fields_unclocked (W : World) : ∀ o : Op, Unclocked o → o.fields W = .ub
  | .plain _ _, h => by simp [Unclocked] at h
  | .laser _ _ _ f, h => by
    have h' : f.clock = none := by simpa [Unclocked] using h
    simp [Op.fields, Field.get, h']
  | .many _ ms, h => by
    simp only [Op.fields]
    exact allFields_unclocked W ms (by simpa [Unclocked] using h)

theorem allFields_unclocked (W : World) : ∀ os : List Op, AnyUnclocked os → allFields W os = .ub
  | [], h => by simp [AnyUnclocked] at h
  | o :: os, h => by
    have h' : Unclocked o ∨ AnyUnclocked os := by simpa [AnyUnclocked] using h
    simp only [allFields]
    rcases h' with h | h
    · simp [fields_unclocked W o h]
    · rw [allFields_unclocked W os h]
      cases ho : o.fields W with
      | threw => exact absurd ho (fields_not_threw W o)
      | ub => rfl
      | val a => rfl
end

mutual
theorem setClock_static (W : World) (c : Option ℕ) : ∀ o : Op, Static o →
    ∃ o', o.setClock W c = .ok o' ∧ Static o' ∧ o'.hermitian = o.hermitian
  | .plain _ h, _ => ⟨.plain c h, rfl, by simp [Static], rfl⟩
  | .laser _ _ _ _, h => by simp [Static] at h
  | .many _ ms, h => by
    obtain ⟨ms', h1, h2, h3⟩ := setClocks_static W c ms (by simpa [Static] using h)
    exact ⟨.many c ms', by simp only [Op.setClock, h1], by simpa [Static] using h2, by simp [Op.hermitian, h3]⟩

theorem setClocks_static (W : World) (c : Option ℕ) : ∀ os : List Op, AllStatic os →
    ∃ os', setClocks W c os = .ok os' ∧ AllStatic os' ∧ allHermitian os' = allHermitian os
  | [], _ => ⟨[], rfl, by simp [AllStatic], rfl⟩
  | o :: os, h => by
    have h' : Static o ∧ AllStatic os := by simpa [AllStatic] using h
    obtain ⟨o', h1, h2, h3⟩ := setClock_static W c o h'.1
    obtain ⟨os', h4, h5, h6⟩ := setClocks_static W c os h'.2
    exact ⟨o' :: os', by simp only [setClocks, h1, h4], by simp [AllStatic, h2, h5], by simp [allHermitian, h3, h6]⟩
end

mutual
theorem fields_static (W : World) : ∀ o : Op, Static o → o.fields W = .val []
  | .plain _ _, _ => rfl
  | .laser _ _ _ _, h => by simp [Static] at h
  | .many _ ms, h => by
    simp only [Op.fields]
    exact allFields_static W ms (by simpa [Static] using h)

theorem allFields_static (W : World) : ∀ os : List Op, AllStatic os → allFields W os = .val []
  | [], _ => rfl
  | o :: os, h => by
    have h' : Static o ∧ AllStatic os := by simpa [AllStatic] using h
    simp only [allFields, fields_static W o h'.1, allFields_static W os h'.2, List.append_nil]
end

mutual
theorem static_fits (c : Clk) : ∀ o : Op, Static o → Fits c o ∧ drive c o = []
  | .plain _ _, _ => ⟨by simp [Fits], rfl⟩
  | .laser _ _ _ _, h => by simp [Static] at h
  | .many _ ms, h => by
    have := static_allfit c ms (by simpa [Static] using h)
    exact ⟨by simpa [Fits] using this.1, by simpa [drive] using this.2⟩

theorem static_allfit (c : Clk) : ∀ os : List Op, AllStatic os → AllFit c os ∧ drives c os = []
  | [], _ => ⟨by simp [AllFit], rfl⟩
  | o :: os, h => by
    have h' : Static o ∧ AllStatic os := by simpa [AllStatic] using h
    have h1 := static_fits c o h'.1
    have h2 := static_allfit c os h'.2
    exact ⟨by simp [AllFit, h1.1, h2.1], by simp [drives, h1.2, h2.2]⟩
end

/-! ### Set-up -/

theorem fitAll_ok (fit : Op → Ans Unit) (h : ∀ o, fit o = .val ()) : ∀ os, fitAll fit os = .val ()
  | [] => rfl
  | o :: os => by simp [fitAll, h, fitAll_ok fit h os]

theorem fitAll_not_ub (fit : Op → Ans Unit) (h : ∀ o, fit o ≠ .ub) : ∀ os, fitAll fit os ≠ .ub
  | [] => by simp [fitAll]
  | o :: os => by
    have h1 := h o
    have h2 := fitAll_not_ub fit h os
    simp only [fitAll]
    cases ho : fit o with
    | val _ => exact h2
    | threw => simp
    | ub => exact absurd ho h1

/-- The state after the set-up of a new propagator with one operator. -/
noncomputable def st (kind : Kind) (k : ℕ) (c : ℂ) (H : Op) (slots : Bool) (coef : Option K) : Propag K :=
  { kind := kind, names := [("hamiltonian", 0)], members := [H], clock := some k, c0 := c, forward := true,
    imaginary := false, ready := true, slots := slots, order := 20, eps := 1e-12, coef := coef, H := .member 0 }

theorem setUp_cheby (W : World) (fit : Bool → Op → Ans Unit) (S : Series K) (k : ℕ) (H H' : Op) (x : K)
    (hfit : ∀ o, fit true o = .val ()) (hdt : (W k).dt ≠ 0) (h : H.setClock W (some k) = .ok H')
    (hx : S H' (-Complex.I * ((W k).dt : ℂ)) (W k).dt false 20 = .val x) :
    (Propag.new .cheby).setUp W fit S k H = .ok (st .cheby k (-Complex.I * ((W k).dt : ℂ)) H' false (some x)) := by
  rw [neg_mul] at hx
  simp [Propag.setUp, Propag.add, Propag.new, Propag.setClock, Propag.init, Propag.initCheby, Propag.find,
    Propag.giveClock, h, Propag.target, hfit, Propag.base, hdt, fitAll_ok, Propag.initSeries, hx, st]

theorem setUp_krylov (W : World) (fit : Bool → Op → Ans Unit) (S : Series K) (kind : Kind) (k : ℕ) (H H' : Op)
    (hkind : kind = .sil ∨ kind = .arnoldi) (hfit : ∀ o, fit true o = .val ()) (hdt : (W k).dt ≠ 0)
    (h : H.setClock W (some k) = .ok H') (hh : kind = .sil → H.hermitian = true) :
    (Propag.new kind).setUp W fit S k H = .ok (st kind k (-Complex.I * ((W k).dt : ℂ)) H' true none) := by
  rcases hkind with rfl | rfl
  · simp [Propag.setUp, Propag.add, Propag.new, Propag.setClock, Propag.init, Propag.initKrylov, Propag.find,
      Propag.giveClock, h, hfit, Propag.base, hdt, fitAll_ok, hh, st]
  · simp [Propag.setUp, Propag.add, Propag.new, Propag.setClock, Propag.init, Propag.initKrylov, Propag.find,
      Propag.giveClock, h, hfit, Propag.base, hdt, fitAll_ok, st]

theorem setUp_rk4 (W : World) (fit : Bool → Op → Ans Unit) (S : Series K) (k : ℕ) (H : Op)
    (hfit : ∀ o, fit true o = .val ()) (hdt : (W k).dt ≠ 0) :
    (Propag.new .rk4).setUp W fit S k H = .ok (st .rk4 k (-Complex.I * ((W k).dt : ℂ)) H false none) := by
  simp [Propag.setUp, Propag.add, Propag.new, Propag.setClock, Propag.init, Propag.initRK4, Propag.find, hfit,
    Propag.base, hdt, fitAll_ok, Propag.target, st]

theorem again_cheby (W : World) (fit : Bool → Op → Ans Unit) (S : Series K) (k k' : ℕ) (c : ℂ) (H H' : Op) (b : Bool)
    (x : Option K) (hfit : ∀ o, fit true o = .val ()) (hdt : (W k').dt ≠ 0) (h : H.setClock W (some k') = .ok H') :
    ((st .cheby k c H b x).setClock W k').init W fit S true
      = .ok (st .cheby k' (-Complex.I * ((W k').dt : ℂ)) H' b x) := by
  simp [st, Propag.setClock, Propag.init, Propag.initCheby, Propag.find,
    Propag.giveClock, h, Propag.target, hfit, Propag.base, hdt, fitAll_ok, Propag.initSeries]

theorem again_krylov (W : World) (fit : Bool → Op → Ans Unit) (S : Series K) (kind : Kind) (k k' : ℕ) (c : ℂ) (H : Op)
    (b : Bool) (x : Option K) (hkind : kind = .sil ∨ kind = .arnoldi) (hfit : ∀ o, fit true o = .val ())
    (hdt : (W k').dt ≠ 0) :
    ((st kind k c H b x).setClock W k').init W fit S true
      = .ok (st kind k' (-Complex.I * ((W k').dt : ℂ)) H b x) := by
  rcases hkind with rfl | rfl <;>
  simp [st, Propag.setClock, Propag.init, Propag.initKrylov, hfit, Propag.base, hdt, fitAll_ok]

theorem again_rk4 (W : World) (fit : Bool → Op → Ans Unit) (S : Series K) (k k' : ℕ) (c : ℂ) (H : Op)
    (b : Bool) (x : Option K) :
    ((st .rk4 k c H b x).setClock W k').init W fit S true
      = .ok (st .rk4 k' (-Complex.I * ((W k').dt : ℂ)) H b x) := by
  simp [st, Propag.setClock, Propag.init, Propag.initRK4]

theorem step_st (W : World) (kind : Kind) (k : ℕ) (c : ℂ) (H : Op) (b : Bool) (x : Option K) (l : List ℝ)
    (hf : H.fields W = .val l) (h1 : kind = .sil → b = true) (h2 : kind = .cheby → x.isSome = true) :
    (st kind k c H b x).step W = .val
      { kind := kind, fields := l, exponent := c, dt := (W k).dt, imaginary := false,
        order := 20, eps := 1e-12, coef := x } := by
  cases kind with
  | cheby =>
    have : x.isNone = false := by have := h2 rfl; cases x <;> simp_all
    simp [Propag.step, Propag.target, st, hf, this]
  | sil => simp [Propag.step, Propag.target, st, hf, h1 rfl]
  | arnoldi => simp [Propag.step, Propag.target, st, hf]
  | rk4 => simp [Propag.step, Propag.target, st, hf]

theorem step_st_ub (W : World) (kind : Kind) (k : ℕ) (c : ℂ) (H : Op) (b : Bool) (x : Option K)
    (hf : H.fields W = .ub) : (st kind k c H b x).step W = .ub := by
  simp [Propag.step, Propag.target, st, hf]

end QDng.PLife
