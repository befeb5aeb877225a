import Mathlib.Tactic.Ring
import Mathlib.Tactic.Linarith
import Mathlib.Tactic.FieldSimp
import Mathlib.Algebra.Order.Field.Basic
import Mathlib.Algebra.Order.Floor.Ring
import Verif.SimpleXml.NestProps

/-
C46 (escaping), C47 (loops), C49 (variables) and C56 (format detection) of the simple input language.
-/

namespace QDng.SimpleXml

open QDng.Common

/-! ### C46: escaped text -/

/-- Specification: decoding of the entities of XML. -/
def unescape : Str → Str
  | [] => []
  | '&' :: 'l' :: 't' :: ';' :: s => '<' :: unescape s
  | '&' :: 'g' :: 't' :: ';' :: s => '>' :: unescape s
  | '&' :: 'a' :: 'm' :: 'p' :: ';' :: s => '&' :: unescape s
  | c :: s => c :: unescape s

/-- Specification: a text without markup, in which every ampersand begins an entity. -/
def Inert (t : Str) : Prop :=
  '<' ∉ t ∧ '>' ∉ t ∧ ∀ a b, t = a ++ '&' :: b →
    ∃ rest, b = "lt;".toList ++ rest ∨ b = "gt;".toList ++ rest ∨ b = "amp;".toList ++ rest

theorem escape_nil : escape [] = [] := rfl

theorem unescape_other (c : Char) (s : Str) (h : c ≠ '&') : unescape (c :: s) = c :: unescape s := by
  rw [unescape] <;> intros <;> simp_all

theorem unescape_escape : ∀ s : Str, unescape (escape s) = s := by
  intro s
  induction s with
  | nil => rfl
  | cons c s ih =>
    unfold escape escapeChar
    split_ifs with h1 h2 h3
    · subst h1
      show unescape ('&' :: 'l' :: 't' :: ';' :: escape s) = _
      rw [unescape, ih]
    · subst h2
      show unescape ('&' :: 'g' :: 't' :: ';' :: escape s) = _
      rw [unescape, ih]
    · subst h3
      show unescape ('&' :: 'a' :: 'm' :: 'p' :: ';' :: escape s) = _
      rw [unescape, ih]
    · show unescape (c :: escape s) = _
      rw [unescape_other c _ h3, ih]

theorem amp_split (w : Str) (hw : '&' ∉ w) : ∀ (s a b : Str), w ++ s = a ++ '&' :: b →
    ∃ a', s = a' ++ '&' :: b := by
  induction w with
  | nil => intro s a b h; exact ⟨a, h⟩
  | cons c w ih =>
    intro s a b h
    cases a with
    | nil =>
      rw [List.nil_append, List.cons_append] at h
      injection h with h1 h2
      exact absurd (List.mem_cons.mpr (Or.inl h1.symm)) hw
    | cons d a =>
      rw [List.cons_append, List.cons_append] at h
      injection h with h1 h2
      exact ih (fun hm => hw (List.mem_cons_of_mem _ hm)) s a b h2

theorem inert_escape : ∀ s : Str, Inert (escape s) := by
  intro s
  induction s with
  | nil => exact ⟨by simp [escape], by simp [escape], by intro a b h; simp [escape] at h⟩
  | cons c s ih =>
    obtain ⟨i1, i2, i3⟩ := ih
    unfold escape escapeChar
    split_ifs with h1 h2 h3
    · refine ⟨by simp [i1], by simp [i2], ?_⟩
      intro a b h
      cases a with
      | nil =>
        injection h with _ h
        exact ⟨escape s, Or.inl h.symm⟩
      | cons d a =>
        injection h with _ h
        obtain ⟨a', h'⟩ := amp_split ['l', 't', ';'] (by decide) (escape s) a b h
        exact i3 _ _ h'
    · refine ⟨by simp [i1], by simp [i2], ?_⟩
      intro a b h
      cases a with
      | nil =>
        injection h with _ h
        exact ⟨escape s, Or.inr (Or.inl h.symm)⟩
      | cons d a =>
        injection h with _ h
        obtain ⟨a', h'⟩ := amp_split ['g', 't', ';'] (by decide) (escape s) a b h
        exact i3 _ _ h'
    · refine ⟨by simp [i1], by simp [i2], ?_⟩
      intro a b h
      cases a with
      | nil =>
        injection h with _ h
        exact ⟨escape s, Or.inr (Or.inr h.symm)⟩
      | cons d a =>
        injection h with _ h
        obtain ⟨a', h'⟩ := amp_split ['a', 'm', 'p', ';'] (by decide) (escape s) a b h
        exact i3 _ _ h'
    · refine ⟨?_, ?_, ?_⟩
      · simp only [List.singleton_append, List.mem_cons, not_or]
        exact ⟨fun e => h1 e.symm, i1⟩
      · simp only [List.singleton_append, List.mem_cons, not_or]
        exact ⟨fun e => h2 e.symm, i2⟩
      · intro a b h
        obtain ⟨a', h'⟩ := amp_split [c] (by simpa using fun e => h3 e.symm) (escape s) a b h
        exact i3 _ _ h'

theorem escape_length (s : Str) : (escape s).length + 1 ≤ escapeRoom s := by
  induction s with
  | nil => decide
  | cons c s ih =>
    have : (escapeChar c).length ≤ 5 := by
      unfold escapeChar
      split_ifs <;> simp
    unfold escape escapeRoom
    unfold escapeRoom at ih
    rw [List.length_append, List.length_cons]
    omega

/-- C46: for every text, the escaped text is inert, decoding it gives the text back, and it fits with its
terminating zero into the memory that is allocated for it. -/
theorem C46_escape (s : Str) :
    Inert (escape s) ∧ unescape (escape s) = s ∧ (escape s).length + 1 ≤ escapeRoom s :=
  ⟨inert_escape s, unescape_escape s, escape_length s⟩

/-- A text with all special characters. -/
example : escape "a<b&c>".toList = "a&lt;b&amp;c&gt;".toList := by decide

/-! ### C49: variables -/

/-- The variables after some assignments of words: the last assignment counts. -/
def lastValue (vars : Vars) (l : List (Str × Str)) (n : Str) : Str :=
  ((l.reverse.find? fun a => a.1 == n).map Prod.snd).getD (vars n)

/-- The text of an element of an expression. -/
def pieceText (env : Str → Str) : Piece → Str
  | .token s => s
  | .quoted s => escape s
  | .var n _ => env n

/-- The text of a concatenation. -/
def piecesText (env : Str → Str) (l : List Piece) : Str := (l.map (pieceText env)).flatten

/-- The attributes among some items with their texts. -/
def attrPairs (env : Str → Str) : List Item → List (Str × Str)
  | [] => []
  | .attr n f r :: l => (n, piecesText env (f :: r)) :: attrPairs env l
  | _ :: l => attrPairs env l

mutual
/-- The output of an item without loops and assignments. -/
def Item.events (env : Str → Str) (depth : Nat) : Item → List Event
  | .block n body =>
    if body.any Item.isBlock then
      .start depth n (attrPairs env body) :: (eventsOf env (depth + 1) body ++ [.stop depth n])
    else [.single depth n (attrPairs env body)]
  | _ => []
/-- The output of several items. -/
def eventsOf (env : Str → Str) (depth : Nat) : List Item → List Event
  | [] => []
  | i :: l => i.events env depth ++ eventsOf env depth l
end

/-- An element without a format whose text is shorter than the buffer. -/
def Piece.fits (env : Str → Str) (p : Piece) : Prop :=
  (∀ n f, p = .var n f → f = none) ∧ (pieceText env p).length < 1024

mutual
/-- Items without loops and assignments, with short texts. -/
def Item.static (env : Str → Str) : Item → Prop
  | .comment => True
  | .assign _ _ _ => False
  | .attr n f r => n.length < 1024 ∧ ∀ p ∈ f :: r, p.fits env
  | .block _ body => staticAll env body
  | .loop _ _ _ _ _ => False
/-- The same for several items. -/
def staticAll (env : Str → Str) : List Item → Prop
  | [] => True
  | i :: l => i.static env ∧ staticAll env l
end

mutual
theorem static_item (L : Lib) (env : Str → Str) : ∀ (i : Item), i.static env → ∃ ns, i.nodes L = some ns ∧
    ∀ (m : Str) (a : List (Str × List Elem)) (cs : List Node) (fs : List Frame) (ind : Int) (r : Run),
      ind = ((fs.length + 1 : Nat) : Int) →
      parse L i.lines ⟨ind, .valid, .elem m a cs :: fs, r⟩ =
        .ok ⟨ind, .valid, .elem m (a ++ attrsOf [i]) (cs ++ ns) :: fs, r⟩
  | .comment, _ => ⟨[], rfl, fun m a cs fs ind r _ => by simp [Item.lines, parse, State.step, Out.bind, attrsOf]⟩
  | .assign _ _ _, h => by unfold Item.static at h; exact absurd h id
  | .attr n f r, h => ⟨[], rfl, fun m a cs fs ind r _ => by
      simp [Item.lines, parse, State.step, Out.bind, attrsOf]⟩
  | .loop _ _ _ _ _, h => by unfold Item.static at h; exact absurd h id
  | .block n body, h => by
    unfold Item.static at h
    obtain ⟨ns, hn, hp⟩ := static_items L env body h
    refine ⟨[.elem n (attrsOf body) ns], ?_, ?_⟩
    · unfold Item.nodes
      rw [hn]
      rfl
    · intro m a cs fs ind r hi
      have happ : ∀ (x y : List Line) (st s1 : State), parse L x st = .ok s1 → parse L (x ++ y) st = parse L y s1 := by
        intro x
        induction x with
        | nil => intro y st s1 h; cases h; rfl
        | cons l x ih =>
          intro y st s1 h
          unfold parse at h
          obtain ⟨s2, h1, h2⟩ := bind_ok (B := State) _ _ _ h
          rw [List.cons_append, parse, h1]
          exact ih y s2 s1 h2
      unfold Item.lines
      rw [parse]
      show parse L (itemLines body ++ [.close]) ⟨ind + 1, .valid, .elem n [] [] :: .elem m a cs :: fs, r⟩ = _
      rw [happ _ _ _ _ (hp n [] [] (.elem m a cs :: fs) (ind + 1) r (by
        rw [hi]; simp))]
      rw [parse]
      unfold State.step State.close
      dsimp only
      rw [finish_nested L _ _ (by show ind + 1 - 1 ≠ 0; rw [hi]; push_cast; omega)]
      show Out.ok _ = _
      have : ind + 1 - 1 = ind := by omega
      rw [this]
      simp [attrsOf, Frame.addChild, Frame.node]
theorem static_items (L : Lib) (env : Str → Str) : ∀ (l : List Item), staticAll env l → ∃ ns, nodesOf L l = some ns ∧
    ∀ (m : Str) (a : List (Str × List Elem)) (cs : List Node) (fs : List Frame) (ind : Int) (r : Run),
      ind = ((fs.length + 1 : Nat) : Int) →
      parse L (itemLines l) ⟨ind, .valid, .elem m a cs :: fs, r⟩ =
        .ok ⟨ind, .valid, .elem m (a ++ attrsOf l) (cs ++ ns) :: fs, r⟩
  | [], _ => ⟨[], rfl, fun m a cs fs ind r _ => by simp [itemLines, parse, attrsOf]⟩
  | i :: l, h => by
    unfold staticAll at h
    obtain ⟨n1, e1, p1⟩ := static_item L env i h.1
    obtain ⟨n2, e2, p2⟩ := static_items L env l h.2
    refine ⟨n1 ++ n2, ?_, ?_⟩
    · unfold nodesOf
      rw [e1, e2]
    · intro m a cs fs ind r hi
      have happ : ∀ (x y : List Line) (st s1 : State), parse L x st = .ok s1 → parse L (x ++ y) st = parse L y s1 := by
        intro x
        induction x with
        | nil => intro y st s1 h; cases h; rfl
        | cons l x ih =>
          intro y st s1 h
          unfold parse at h
          obtain ⟨s2, h1, h2⟩ := bind_ok (B := State) _ _ _ h
          rw [List.cons_append, parse, h1]
          exact ih y s2 s1 h2
      unfold itemLines
      rw [happ _ _ _ _ (p1 m a cs fs ind r hi), p2 m _ _ fs ind r hi]
      have he : attrsOf (i :: l) = attrsOf [i] ++ attrsOf l := by
        cases i <;> simp [attrsOf]
      rw [he]
      simp
end

theorem elem_text (L : Lib) (hfmt : ∀ s, L.fmtStr ['%', 's'] s = s) (env : Vars) (p : Piece) (h : p.fits env) :
    p.elem.text L env = some (pieceText env p) := by
  obtain ⟨h1, h2⟩ := h
  cases p with
  | token s =>
    show some _ = some s
    rw [hfmt, List.take_of_length_le (by have : s.length < 1024 := h2; omega)]
  | quoted s =>
    show some _ = some (escape s)
    rw [hfmt, List.take_of_length_le (by have : (escape s).length < 1024 := h2; omega)]
  | var n f =>
    rw [h1 n f rfl]
    show (Elem.var n ['%', 's']).text L env = some (env n)
    unfold Elem.text
    dsimp only
    rw [if_neg (by decide), if_neg (by decide), hfmt,
      List.take_of_length_le (by have : (env n).length < 1024 := h2; omega)]

theorem printElems_static (L : Lib) (hfmt : ∀ s, L.fmtStr ['%', 's'] s = s) (env : Vars) : ∀ (l : List Piece),
    (∀ p ∈ l, p.fits env) → ∀ out, printElems L (l.map Piece.elem) ⟨env, out⟩ = .ok ⟨env, out ++ piecesText env l⟩ := by
  intro l
  induction l with
  | nil => intro _ out; simp [printElems, piecesText]
  | cons p l ih =>
    intro h out
    rw [List.map_cons]
    unfold printElems
    rw [elem_text L hfmt env p (h p List.mem_cons_self)]
    dsimp only
    show printElems L (l.map Piece.elem) ⟨env, out ++ pieceText env p⟩ = _
    rw [ih (fun q hq => h q (List.mem_cons_of_mem _ hq))]
    simp [piecesText]

theorem printAttrs_static (L : Lib) (hfmt : ∀ s, L.fmtStr ['%', 's'] s = s) (env : Vars) : ∀ (l : List Item),
    staticAll env l → ∀ out, printAttrs L (attrsOf l) ⟨env, out⟩ = .ok ⟨env, out ++ attrText (attrPairs env l)⟩ := by
  intro l
  induction l with
  | nil => intro _ out; simp [attrsOf, printAttrs, attrPairs, attrText]
  | cons i l ih =>
    intro h out
    unfold staticAll at h
    have ih' := ih h.2
    cases i with
    | comment => exact ih' out
    | assign => have := h.1; unfold Item.static at this; exact absurd this id
    | loop => have := h.1; unfold Item.static at this; exact absurd this id
    | block => exact ih' out
    | attr n f r =>
      have hs := h.1
      unfold Item.static at hs
      show printAttrs L ((n, (f :: r).map Piece.elem) :: attrsOf l) ⟨env, out⟩ = _
      unfold printAttrs
      have h1 := printElems_static L hfmt env [.token n]
        (by intro p hp; rw [List.mem_singleton] at hp; subst hp; exact ⟨(by intro _ _ e; cases e), hs.1⟩) (out ++ [' '])
      rw [show printElems L [.str n] ((⟨env, out⟩ : Run).put [' ']) = _ from h1]
      show (printElems L ((f :: r).map Piece.elem) _).bind _ = _
      rw [show (Run.put ⟨env, out ++ [' '] ++ piecesText env [Piece.token n]⟩ ['=', '"'] : Run) =
        ⟨env, out ++ [' '] ++ piecesText env [Piece.token n] ++ ['=', '"']⟩ from rfl,
        printElems_static L hfmt env (f :: r) hs.2]
      show printAttrs L (attrsOf l) ⟨env, _⟩ = _
      rw [ih']
      simp [attrText, attrPairs, piecesText, pieceText]

mutual
theorem exec_static_item (L : Lib) (hfmt : ∀ s, L.fmtStr ['%', 's'] s = s) (env : Vars) : ∀ (i : Item),
    i.static env → ∀ ns, i.nodes L = some ns → ∀ (depth : Nat) (out : Str),
    execAll L depth ns ⟨env, out⟩ = .ok ⟨env, out ++ render (i.events env depth)⟩
  | .comment, _, ns, h, depth, out => by
    unfold Item.nodes at h; cases h; unfold execAll; simp [Item.events, render]
  | .attr _ _ _, _, ns, h, depth, out => by
    unfold Item.nodes at h; cases h; unfold execAll; simp [Item.events, render]
  | .assign _ _ _, hs, _, _, _, _ => by unfold Item.static at hs; exact absurd hs id
  | .loop _ _ _ _ _, hs, _, _, _, _ => by unfold Item.static at hs; exact absurd hs id
  | .block n body, hs, ns, h, depth, out => by
    unfold Item.static at hs
    unfold Item.nodes at h
    cases hb : nodesOf L body with
    | none => rw [hb] at h; cases h
    | some cs =>
      rw [hb] at h
      cases h
      have hx := exec_static_items L hfmt env body hs cs hb (depth + 1)
      have hnil := nodesOf_nil L body cs hb
      unfold execAll Item.events
      unfold exec
      rw [show (Run.put ⟨env, out⟩ (indentText depth ++ ['<'] ++ n) : Run) =
        ⟨env, out ++ (indentText depth ++ ['<'] ++ n)⟩ from rfl, printAttrs_static L hfmt env body hs]
      cases cs with
      | nil =>
        rw [hnil.mp rfl]
        simp [execAll, Out.bind, Run.put, render, Event.text, indentText_eq]
      | cons c cs =>
        have ht : body.any Item.isBlock = true := by
          by_contra hn
          exact absurd (hnil.mpr (by simpa using hn)) (by simp)
        rw [ht, if_pos rfl]
        show ((execAll L (depth + 1) (c :: cs) ⟨env, _⟩).bind _).bind _ = _
        rw [hx]
        simp [execAll, Out.bind, Run.put, render, Event.text, indentText_eq]
theorem exec_static_items (L : Lib) (hfmt : ∀ s, L.fmtStr ['%', 's'] s = s) (env : Vars) : ∀ (l : List Item),
    staticAll env l → ∀ ns, nodesOf L l = some ns → ∀ (depth : Nat) (out : Str),
    execAll L depth ns ⟨env, out⟩ = .ok ⟨env, out ++ render (eventsOf env depth l)⟩
  | [], _, ns, h, depth, out => by
    unfold nodesOf at h; cases h; unfold execAll; simp [eventsOf, render]
  | i :: l, hs, ns, h, depth, out => by
    unfold staticAll at hs
    unfold nodesOf at h
    cases ha : i.nodes L with
    | none => rw [ha] at h; cases h
    | some a =>
      cases hb : nodesOf L l with
      | none => rw [ha, hb] at h; cases h
      | some b =>
        rw [ha, hb] at h
        cases h
        have happ : ∀ (x y : List Node) (r r1 : Run), execAll L depth x r = .ok r1 →
            execAll L depth (x ++ y) r = execAll L depth y r1 := by
          intro x
          induction x with
          | nil => intro y r r1 h; unfold execAll at h; cases h; rfl
          | cons c x ih =>
            intro y r r1 h
            unfold execAll at h
            obtain ⟨s2, h1, h2⟩ := bind_ok (B := Run) _ _ _ h
            rw [List.cons_append, execAll, h1]
            exact ih y s2 r1 h2
        rw [happ _ _ _ _ (exec_static_item L hfmt env i hs.1 a ha depth out),
          exec_static_items L hfmt env l hs.2 b hb depth, eventsOf, render_append, List.append_assoc]
end

theorem assigns_parse (L : Lib) (rest : List Line) : ∀ (pre : List (Str × Str)) (vars : Vars),
    parse L (pre.map (fun a => .assign a.1 (.token a.2) []) ++ rest) (State.init vars) =
      parse L rest (State.init (lastValue vars pre)) := by
  intro pre
  induction pre with
  | nil => intro vars; congr
  | cons a pre ih =>
    intro vars
    rw [List.map_cons, List.cons_append, parse]
    show parse L _ (State.init (setVar vars a.1 a.2)) = _
    rw [ih]
    congr 2
    funext n
    unfold lastValue
    rw [List.reverse_cons, List.find?_append]
    cases hf : pre.reverse.find? fun b => b.1 == n with
    | some b => rfl
    | none =>
      rw [List.find?_singleton]
      unfold setVar
      by_cases e : n = a.1
      · subst e; simp
      · have e' : (a.1 == n) = false := by simpa using fun h => e h.symm
        rw [if_neg e, e']
        rfl

/-- C49: a program of assignments of words followed by one block, with attributes and blocks nested to any depth in
it, is translated, and every reference in it has the value last assigned to the variable (the predefined one
without an assignment): the output consists of the tags of the blocks with the evaluated attributes.  Missing:
other assigned values, assignments inside of the block, see the theorems below; formats; texts longer than the
buffer; loops (C47). -/
theorem C49_variables_partial (L : Lib) (hfmt : ∀ s, L.fmtStr ['%', 's'] s = s) (vars : Vars)
    (pre : List (Str × Str)) (name : Str) (body : List Item)
    (hs : staticAll (lastValue vars pre) body) :
    ∃ st, parse L (pre.map (fun a => .assign a.1 (.token a.2) []) ++ (Item.block name body).lines)
        (State.init vars) = .ok st ∧
      st.run.out = render ((Item.block name body).events (lastValue vars pre) 0) := by
  rw [assigns_parse]
  generalize henv : lastValue vars pre = env
  rw [henv] at hs
  obtain ⟨ns, hn, hp⟩ := static_items L env body hs
  have he := exec_static_item L hfmt env (.block name body) (by unfold Item.static; exact hs)
    [.elem name (attrsOf body) ns] (by unfold Item.nodes; rw [hn]; rfl) 0 []
  unfold execAll at he
  obtain ⟨r1, h1, h2⟩ := bind_ok (B := Run) _ _ _ he
  unfold execAll at h2
  cases h2
  have happ : ∀ (x y : List Line) (st s1 : State), parse L x st = .ok s1 → parse L (x ++ y) st = parse L y s1 := by
    intro x
    induction x with
    | nil => intro y st s1 h; cases h; rfl
    | cons l x ih =>
      intro y st s1 h
      unfold parse at h
      obtain ⟨s2, h1, h2⟩ := bind_ok (B := State) _ _ _ h
      rw [List.cons_append, parse, h1]
      exact ih y s2 s1 h2
  refine ⟨⟨0, .deleted, [], ⟨env, render ((Item.block name body).events env 0)⟩⟩, ?_, rfl⟩
  unfold Item.lines
  rw [parse]
  show parse L (itemLines body ++ [.close]) ⟨0 + 1, .valid, .elem name [] [] :: [], ⟨env, []⟩⟩ = _
  rw [happ _ _ _ _ (hp name [] [] [] (0 + 1) ⟨env, []⟩ (by simp))]
  rw [parse]
  unfold State.step State.close
  dsimp only
  unfold State.finish
  rw [if_pos (by show (0 + 1 - 1 : Int) = 0; rfl)]
  dsimp only
  rw [show (Frame.elem name ([] ++ attrsOf body) ([] ++ ns)).node = Node.elem name (attrsOf body) ns from rfl, h1]
  simp [Out.bind, parse]

/-- The hypotheses are met by a program with two assignments to one variable and nested blocks. -/
example : staticAll (lastValue (fun _ => []) [("x".toList, "1".toList), ("x".toList, "2".toList)])
    [.attr "k".toList (.token "a".toList) [.var "x".toList none], .block "b".toList
      [.attr "l".toList (.quoted "a<b".toList) []]] := by
  refine ⟨⟨by decide, ?_⟩, ⟨⟨by decide, ?_⟩, trivial⟩, trivial⟩
  · intro p hp
    rcases List.mem_cons.mp hp with rfl | hp
    · exact ⟨(by intro _ _ e; cases e), by decide⟩
    · rw [List.mem_singleton] at hp
      subst hp
      exact ⟨(by intro _ _ e; cases e; rfl), by decide⟩
  · intro p hp
    rw [List.mem_singleton] at hp
    subst hp
    exact ⟨(by intro _ _ e; cases e), by decide⟩

/-- C49 is violated: an assigned concatenation stores its first element only. -/
theorem C49_violated_concat (L : Lib) (vars : Vars) : ∃ st,
    parse L [.assign "x".toList (.token "a".toList) [.token "b".toList]] (State.init vars) = .ok st ∧
      st.run.vars "x".toList = "a".toList :=
  ⟨_, rfl, rfl⟩

/-- C49 is violated: assigning another variable stores the name of that variable. -/
theorem C49_violated_copy (L : Lib) (vars : Vars) : ∃ st,
    parse L [.assign "b".toList (.token "1".toList) [], .assign "a".toList (.var "b".toList none) []]
      (State.init vars) = .ok st ∧ st.run.vars "a".toList = "b".toList :=
  ⟨_, rfl, rfl⟩

/-- C49 is violated: an assignment that follows a reference in the same block changes the reference. -/
theorem C49_violated_late (L : Lib) (hfmt : ∀ s, L.fmtStr ['%', 's'] s = s) (vars : Vars) : ∃ st,
    parse L [.assign "x".toList (.token "1".toList) [], .block "a".toList,
        .attr "k".toList (.var "x".toList none) [], .assign "x".toList (.token "2".toList) [], .close]
      (State.init vars) = .ok st ∧ st.run.out = "<a k=\"2\"/>\n".toList := by
  have e := exec_static_item L hfmt (setVar (setVar vars "x".toList "1".toList) "x".toList "2".toList)
    (.block "a".toList [.attr "k".toList (.var "x".toList none) []])
    (by
      refine ⟨⟨by decide, ?_⟩, trivial⟩
      intro p hp
      rw [List.mem_singleton] at hp
      subst hp
      exact ⟨(by intro _ _ e; cases e; rfl), by
        show (setVar _ "x".toList "2".toList "x".toList).length < 1024
        unfold setVar; rw [if_pos rfl]; decide⟩)
    [.elem "a".toList [("k".toList, [.var "x".toList ['%', 's']])] []] rfl 0 []
  unfold execAll at e
  obtain ⟨r1, h1, h2⟩ := bind_ok (B := Run) _ _ _ e
  unfold execAll at h2
  cases h2
  refine ⟨⟨0, .deleted, [], ⟨setVar (setVar vars "x".toList "1".toList) "x".toList "2".toList,
    "<a k=\"2\"/>\n".toList⟩⟩, ?_, ?_⟩
  · show (State.finish L ⟨0, .valid, [], ⟨setVar (setVar vars "x".toList "1".toList) "x".toList "2".toList, []⟩⟩ (.elem "a".toList [("k".toList, [.var "x".toList ['%', 's']])] [])).bind _ = _
    unfold State.finish
    rw [if_pos rfl]
    dsimp only
    rw [h1]
    rfl
  · rfl

/-! ### C46 in the output -/

/-- C46: a quoted text whose escaped form is shorter than the buffer appears in the output escaped. -/
theorem C46_output_partial (L : Lib) (hfmt : ∀ s, L.fmtStr ['%', 's'] s = s) (vars : Vars) (name key s : Str)
    (hk : key.length < 1024) (hlen : (escape s).length < 1024) :
    ∃ st t, parse L [.block name, .attr key (.quoted s) [], .close] (State.init vars) = .ok st ∧
      st.run.out = ['<'] ++ name ++ [' '] ++ key ++ ['=', '"'] ++ t ++ ['"', '/', '>', '\n'] ∧
      Inert t ∧ unescape t = s := by
  obtain ⟨st, h1, h2⟩ := C49_variables_partial L hfmt vars [] name [.attr key (.quoted s) []]
    ⟨⟨hk, by
      intro p hp
      rw [List.mem_singleton] at hp
      subst hp
      exact ⟨(by intro _ _ e; cases e), hlen⟩⟩, trivial⟩
  refine ⟨st, escape s, h1, ?_, inert_escape s, unescape_escape s⟩
  rw [h2]
  simp [Item.events, Item.isBlock, render, Event.text, attrText, attrPairs, piecesText, pieceText]

/-- A case of `C46_output_partial`. -/
example : (escape "1 < 2".toList).length < 1024 := by decide

/-- C46 is violated: a quoted text that is assigned to a variable reaches the output without escaping. -/
theorem C46_violated_variable (L : Lib) (hfmt : ∀ s, L.fmtStr ['%', 's'] s = s) (vars : Vars) : ∃ st,
    parse L [.assign "x".toList (.quoted "<".toList) [], .block "a".toList,
        .attr "k".toList (.var "x".toList none) [], .close]
      (State.init vars) = .ok st ∧ st.run.out = "<a k=\"<\"/>\n".toList := by
  obtain ⟨st, h1, h2⟩ := C49_variables_partial L hfmt vars [("x".toList, "<".toList)] "a".toList
    [.attr "k".toList (.var "x".toList none) []]
    ⟨⟨by decide, by
      intro p hp
      rw [List.mem_singleton] at hp
      subst hp
      exact ⟨(by intro _ _ e; cases e; rfl), show ("<".toList).length < 1024 by decide⟩⟩, trivial⟩
  exact ⟨st, h1, by rw [h2]; rfl⟩

/-- C46 is violated: the buffer cuts a long text inside of an entity. -/
theorem C46_violated_truncation (L : Lib) (hfmt : ∀ s, L.fmtStr ['%', 's'] s = s) (vars : Vars) :
    (Piece.quoted (List.replicate 1022 'a' ++ ['&'])).elem.text L vars = some (List.replicate 1022 'a' ++ ['&']) ∧
    ¬ Inert (List.replicate 1022 'a' ++ ['&']) := by
  refine ⟨?_, ?_⟩
  · show some _ = _
    rw [hfmt]
    exact congrArg some (by decide +kernel)
  · intro h
    obtain ⟨rest, h⟩ := h.2.2 (List.replicate 1022 'a') [] rfl
    rcases h with h | h | h <;> cases h

/-! ### C47: loops -/

/-- Specification: `v` is not beyond `e` for a loop with the step `s`. -/
def NotBeyond (s e v : ℚ) : Prop := if 0 < s then v ≤ e else e ≤ v

/-- Specification: the body is executed for one value after the other. -/
def forEach (body : ℚ → Run → Out Run) : List ℚ → Run → Out Run
  | [], r => .ok r
  | v :: l, r => (body v r).bind fun r => forEach body l r

theorem repeat_forEach (L : Lib) (v : Str) (s : ℚ) (body : Run → Out Run) : ∀ (n : Nat) (d : ℚ) (r : Run),
    repeatLoop L v s body n d r =
      forEach (fun x r => body { r with vars := setVar r.vars v (L.fmtG x) })
        ((List.range n).map fun k : ℕ => d + (k : ℚ) * s) r := by
  intro n
  induction n with
  | zero => intro d r; rfl
  | succ n ih =>
    intro d r
    unfold repeatLoop
    rw [List.range_succ_eq_map, List.map_cons, List.map_map]
    unfold forEach
    have e : ∀ r, repeatLoop L v s body n (d + s) r = forEach (fun x r => body { r with vars := setVar r.vars v (L.fmtG x) })
        (List.map ((fun k : ℕ => d + (k : ℚ) * s) ∘ Nat.succ) (List.range n)) r := by
      intro r
      rw [ih]
      congr 1
      apply List.map_congr_left
      intro k _
      simp only [Function.comp]
      push_cast
      ring
    simp only [e, Nat.cast_zero, zero_mul, add_zero]

/-- C47: a loop whose step points from its begin to its end (or whose begin is its end) executes its body once for
each of the values begin, begin + step, ... that are not beyond the end, in this order, with the variable set to the
value.  Missing: wrong directions and a zero step, see the theorems below; rounding of floating point numbers. -/
theorem C47_loop_partial (L : Lib) (depth : Nat) (v : Str) (b e s : ℚ) (body : List Node) (r : Run) (hs : s ≠ 0)
    (hdir : 0 ≤ (e - b) / s) (hn : (e - b) / s < 2 ^ 31) :
    ∃ vs : List ℚ, (∀ x, x ∈ vs ↔ ∃ k : ℕ, x = b + k * s ∧ NotBeyond s e x) ∧
      vs.Pairwise (fun x y => 0 < (y - x) / s) ∧
      exec L depth (.loop v b e s body) r =
        forEach (fun x r => execAll L (depth + 1) body ⟨setVar r.vars v (L.fmtG x), r.out⟩) vs
          (r.put (List.replicate (3 * depth) ' ' ++ loopComment L v b e s)) := by
  have habs : |(b - e) / s| = (e - b) / s := by
    rw [show (b - e) / s = -((e - b) / s) by rw [← neg_div, neg_sub], abs_neg, abs_of_nonneg hdir]
  have hfl : ⌊(e - b) / s⌋ < 2 ^ 31 := Int.floor_lt.mpr (by push_cast; exact hn)
  have hr : rounds b e s = some (⌊(e - b) / s⌋.toNat + 1) := by
    unfold rounds
    rw [if_neg hs, habs, if_pos hfl]
  have hnn : 0 ≤ ⌊(e - b) / s⌋ := Int.floor_nonneg.mpr hdir
  refine ⟨(List.range (⌊(e - b) / s⌋.toNat + 1)).map fun k : ℕ => b + k * s, ?_, ?_, ?_⟩
  · intro x
    rw [List.mem_map]
    have key : ∀ k : ℕ, k < ⌊(e - b) / s⌋.toNat + 1 ↔ NotBeyond s e (b + k * s) := by
      intro k
      have h1 : k < ⌊(e - b) / s⌋.toNat + 1 ↔ (k : ℤ) ≤ ⌊(e - b) / s⌋ := by omega
      rw [h1, Int.le_floor]
      unfold NotBeyond
      split_ifs with hp
      · rw [le_div_iff₀ hp]
        push_cast
        constructor <;> intro h <;> linarith
      · have hneg : s < 0 := lt_of_le_of_ne (not_lt.mp hp) hs
        rw [le_div_iff_of_neg hneg]
        push_cast
        constructor <;> intro h <;> linarith
    constructor
    · rintro ⟨k, hk, rfl⟩
      exact ⟨k, rfl, (key k).mp (List.mem_range.mp hk)⟩
    · rintro ⟨k, rfl, hk⟩
      exact ⟨k, List.mem_range.mpr ((key k).mpr hk), rfl⟩
  · rw [List.pairwise_map]
    refine List.Pairwise.imp ?_ List.pairwise_lt_range
    intro i j hij
    have : (b + (j : ℚ) * s - (b + (i : ℚ) * s)) / s = (j : ℚ) - i := by
      rw [show b + (j : ℚ) * s - (b + (i : ℚ) * s) = ((j : ℚ) - i) * s by ring, mul_div_cancel_right₀ _ hs]
    rw [this]
    have : (i : ℚ) < j := by exact_mod_cast hij
    linarith
  · unfold exec
    rw [hr]
    dsimp only
    rw [repeat_forEach, indentText_eq]

theorem parse_app (L : Lib) : ∀ (x y : List Line) (st s1 : State), parse L x st = .ok s1 →
    parse L (x ++ y) st = parse L y s1 := by
  intro x
  induction x with
  | nil => intro y st s1 h; cases h; rfl
  | cons l x ih =>
    intro y st s1 h
    unfold parse at h
    obtain ⟨s2, h1, h2⟩ := bind_ok (B := State) _ _ _ h
    rw [List.cons_append, parse, h1]
    exact ih y s2 s1 h2

theorem blocks_parse (L : Lib) (env : Str → Str) : ∀ (l : List (Str × List Item)), (∀ x ∈ l, staticAll env x.2) →
    ∃ ns, nodesOf L (l.map fun x => .block x.1 x.2) = some ns ∧
    ∀ (v : Str) (b e s : ℚ) (cs : List Node) (fs : List Frame) (ind : Int) (r : Run), ind = ((fs.length + 1 : Nat) : Int) →
      parse L (itemLines (l.map fun x => .block x.1 x.2)) ⟨ind, .valid, .loop v b e s cs :: fs, r⟩ =
        .ok ⟨ind, .valid, .loop v b e s (cs ++ ns) :: fs, r⟩ := by
  intro l
  induction l with
  | nil =>
    intro _
    exact ⟨[], rfl, fun v b e s cs fs ind r _ => by simp [itemLines, parse]⟩
  | cons x l ih =>
    intro h
    obtain ⟨ns, hn, hp⟩ := ih fun y hy => h y (List.mem_cons_of_mem _ hy)
    obtain ⟨ms, hm, hq⟩ := static_items L env x.2 (h x List.mem_cons_self)
    refine ⟨.elem x.1 (attrsOf x.2) ms :: ns, ?_, ?_⟩
    · rw [List.map_cons, nodesOf, Item.nodes, hm, hn]
      rfl
    · intro v b e s cs fs ind r hi
      have h1 : parse L (Item.block x.1 x.2).lines ⟨ind, .valid, .loop v b e s cs :: fs, r⟩ =
          .ok ⟨ind, .valid, .loop v b e s (cs ++ [.elem x.1 (attrsOf x.2) ms]) :: fs, r⟩ := by
        unfold Item.lines
        rw [parse]
        show parse L (itemLines x.2 ++ [.close]) ⟨ind + 1, .valid, .elem x.1 [] [] :: .loop v b e s cs :: fs, r⟩ = _
        rw [parse_app L _ _ _ _ (hq x.1 [] [] (.loop v b e s cs :: fs) (ind + 1) r (by rw [hi]; simp))]
        rw [parse]
        unfold State.step State.close
        dsimp only
        rw [finish_nested L _ _ (by show ind + 1 - 1 ≠ 0; rw [hi]; push_cast; omega)]
        show Out.ok _ = _
        have : ind + 1 - 1 = ind := by omega
        rw [this]
        simp [Frame.addChild, Frame.node]
      rw [List.map_cons, itemLines, parse_app L _ _ _ _ h1, hp v b e s _ fs ind r hi]
      simp

theorem forEach_static (L : Lib) (hfmt : ∀ s, L.fmtStr ['%', 's'] s = s) (env : Vars) (v : Str) (depth : Nat)
    (items : List Item) (ns : List Node) (hn : nodesOf L items = some ns) : ∀ (vs : List ℚ),
    (∀ x ∈ vs, staticAll (setVar env v (L.fmtG x)) items) → ∀ (env0 : Vars), (∀ w, w ≠ v → env0 w = env w) → ∀ out : Str,
    ∃ env', forEach (fun x r => execAll L depth ns ⟨setVar r.vars v (L.fmtG x), r.out⟩) vs ⟨env0, out⟩ =
      .ok ⟨env', out ++ (vs.map fun x => render (eventsOf (setVar env v (L.fmtG x)) depth items)).flatten⟩ := by
  intro vs
  induction vs with
  | nil => intro _ env0 _ out; exact ⟨env0, by simp [forEach]⟩
  | cons x vs ih =>
    intro h env0 h0 out
    have e : setVar env0 v (L.fmtG x) = setVar env v (L.fmtG x) := by
      funext w
      unfold setVar
      split_ifs with hw
      · rfl
      · exact h0 w hw
    unfold forEach
    dsimp only
    rw [e, exec_static_items L hfmt _ items (h x List.mem_cons_self) ns hn depth out]
    obtain ⟨env', h'⟩ := ih (fun y hy => h y (List.mem_cons_of_mem _ hy)) (setVar env v (L.fmtG x))
      (fun w hw => by unfold setVar; rw [if_neg hw])
      (out ++ render (eventsOf (setVar env v (L.fmtG x)) depth items))
    refine ⟨env', ?_⟩
    show forEach _ vs ⟨setVar env v (L.fmtG x), _⟩ = _
    rw [h']
    simp

/-- C47 for a whole input: a loop with blocks in it, inside of a block, whose step points from its begin to its end, is
translated; after the opening tag and the comment follow the blocks once for each of the values begin, begin + step,
... not beyond the end, in this order, with the references to the variable replaced by the value. -/
theorem C47_program_partial (L : Lib) (hfmt : ∀ s, L.fmtStr ['%', 's'] s = s) (env : Vars) (name v tb te ts : Str)
    (b e s : ℚ) (hb : L.toReal tb = some b) (he : L.toReal te = some e) (blocks : List (Str × List Item))
    (step : Option Str) (hstep : (step = some ts ∧ L.toReal ts = some s) ∨ (step = none ∧ s = 1))
    (hs : s ≠ 0) (hdir : 0 ≤ (e - b) / s) (hn : (e - b) / s < 2 ^ 31)
    (hst : ∀ t, ∀ x ∈ blocks, staticAll (setVar env v (L.fmtG t)) x.2) :
    ∃ (st : State) (vs : List ℚ) (note : Str),
      parse L (Item.block name [.loop v tb te step (blocks.map fun x => .block x.1 x.2)]).lines (State.init env) = .ok st ∧
      (∀ x, x ∈ vs ↔ ∃ k : ℕ, x = b + k * s ∧ NotBeyond s e x) ∧ vs.Pairwise (fun x y => 0 < (y - x) / s) ∧
      st.run.out = ['<'] ++ name ++ ['>', '\n'] ++ note ++
        (vs.map fun x => render (eventsOf (setVar env v (L.fmtG x)) 2 (blocks.map fun x => .block x.1 x.2))).flatten ++
        ['<', '/'] ++ name ++ ['>', '\n'] := by
  obtain ⟨ns, hns, hp⟩ := blocks_parse L (setVar env v (L.fmtG b)) blocks (hst b)
  obtain ⟨vs, hv1, hv2, hv3⟩ := C47_loop_partial L 1 v b e s ns ⟨env, ['<'] ++ name ++ ['>', '\n']⟩ hs hdir hn
  have hall : ∀ t, staticAll (setVar env v (L.fmtG t)) (blocks.map fun x => .block x.1 x.2) := by
    intro t
    have := hst t
    clear hp hns hst
    induction blocks with
    | nil => trivial
    | cons x l ih => exact ⟨this x List.mem_cons_self, ih fun y hy => this y (List.mem_cons_of_mem _ hy)⟩
  obtain ⟨env', hf⟩ := forEach_static L hfmt env v 2 _ ns hns vs (fun x _ => hall x) env (fun _ _ => rfl)
    (['<'] ++ name ++ ['>', '\n'] ++ (List.replicate 3 ' ' ++ loopComment L v b e s))
  have hx : exec L 0 (.elem name [] [.loop v b e s ns]) ⟨env, []⟩ = .ok ⟨env', ['<'] ++ name ++ ['>', '\n'] ++
      (List.replicate 3 ' ' ++ loopComment L v b e s) ++
        (vs.map fun x => render (eventsOf (setVar env v (L.fmtG x)) 2 (blocks.map fun x => .block x.1 x.2))).flatten ++
        (['<', '/'] ++ name ++ ['>', '\n'])⟩ := by
    rw [exec, printAttrs]
    show (execAll L 1 [.loop v b e s ns] ⟨env, [] ++ (['<'] ++ name) ++ ['>', '\n']⟩).bind _ = _
    rw [execAll, show ([] ++ (['<'] ++ name) ++ ['>', '\n'] : Str) = ['<'] ++ name ++ ['>', '\n'] by simp, hv3]
    show ((forEach _ vs ⟨env, _⟩).bind _).bind _ = _
    rw [show List.replicate (3 * 1) ' ' = List.replicate 3 ' ' from rfl]
    rw [show (1 + 1 : ℕ) = 2 from rfl, hf]
    show (execAll L 1 [] _).bind _ = _
    rw [execAll]
    simp [Out.bind, Run.put, indentText]
  have hlf : loopFrame L v tb te step = some (.loop v b e s []) := by
    unfold loopFrame
    rw [hb, he]
    dsimp only
    rcases hstep with ⟨rfl, h⟩ | ⟨rfl, rfl⟩
    · dsimp only
      rw [h]
      rfl
    · rfl
  obtain ⟨out, hout⟩ : ∃ o : Str, ['<'] ++ name ++ ['>', '\n'] ++
      (List.replicate 3 ' ' ++ loopComment L v b e s) ++
        (vs.map fun x => render (eventsOf (setVar env v (L.fmtG x)) 2 (blocks.map fun x => .block x.1 x.2))).flatten ++
        (['<', '/'] ++ name ++ ['>', '\n']) = o := ⟨_, rfl⟩
  rw [hout] at hx
  refine ⟨⟨0, .deleted, [], ⟨env', out⟩⟩, vs, List.replicate 3 ' ' ++ loopComment L v b e s, ?_, hv1, hv2, ?_⟩
  · rw [Item.lines, parse]
    show parse L (itemLines _ ++ [.close]) ⟨0 + 1, .valid, [.elem name [] []], ⟨env, []⟩⟩ = _
    have hloop : parse L (itemLines [.loop v tb te step (blocks.map fun x => .block x.1 x.2)])
        ⟨0 + 1, .valid, [.elem name [] []], ⟨env, []⟩⟩ =
        .ok ⟨0 + 1, .valid, [.elem name [] [.loop v b e s ns]], ⟨env, []⟩⟩ := by
      rw [itemLines, itemLines, List.append_nil, Item.lines, parse]
      have h1 : State.step L ⟨0 + 1, .valid, [.elem name [] []], ⟨env, []⟩⟩ (.loop v tb te step) =
          .ok ⟨0 + 1 + 1, .valid, [.loop v b e s [], .elem name [] []], ⟨env, []⟩⟩ := by
        unfold State.step
        dsimp only
        rw [hlf]
        rfl
      rw [h1]
      show parse L _ _ = _
      rw [parse_app L _ _ _ _ (hp v b e s [] [.elem name [] []] (0 + 1 + 1) ⟨env, []⟩ (by simp)), parse]
      unfold State.step State.close
      dsimp only
      rw [finish_nested L _ _ (by show (0 + 1 + 1 - 1 : Int) ≠ 0; decide)]
      rfl
    rw [parse_app L _ _ _ _ hloop, parse]
    unfold State.step State.close
    dsimp only
    unfold State.finish
    rw [if_pos (by show (0 + 1 - 1 : Int) = 0; rfl)]
    dsimp only
    rw [show (Frame.elem name [] [Node.loop v b e s ns]).node = Node.elem name [] [.loop v b e s ns] from rfl, hx]
    simp [Out.bind, parse]
  · show out = _
    rw [← hout]
    simp

/-- The hypotheses on the blocks are met by a block with a reference to the variable of the loop. -/
example : ∀ t, ∀ x ∈ [("b".toList, [Item.attr "k".toList (.var "i".toList none) []])],
    staticAll (setVar (fun _ => []) "i".toList (plainLib.fmtG t)) x.2 := by
  intro t x hx
  rw [List.mem_singleton] at hx
  subst hx
  refine ⟨⟨by decide, ?_⟩, trivial⟩
  intro p hp
  rw [List.mem_singleton] at hp
  subst hp
  exact ⟨(by intro _ _ e; cases e; rfl), show (['1'] : Str).length < 1024 by decide⟩

/-- A case of `C47_loop_partial`: a loop downwards. -/
example : (-(1 : ℚ) / 2) ≠ 0 ∧ 0 ≤ ((1 : ℚ) - 3) / (-1 / 2) ∧ ((1 : ℚ) - 3) / (-1 / 2) < 2 ^ 31 := by norm_num

/-- C47 is violated: a loop whose step points away from its end is executed, for values on the wrong side. -/
theorem C47_violated_direction (L : Lib) (depth : Nat) (v : Str) (body : List Node) (r : Run) :
    exec L depth (.loop v 1 3 (-1) body) r =
      forEach (fun x r => execAll L (depth + 1) body ⟨setVar r.vars v (L.fmtG x), r.out⟩) [1, 0, -1]
        (r.put (List.replicate (3 * depth) ' ' ++ loopComment L v 1 3 (-1))) := by
  have hr : rounds 1 3 (-1) = some 3 := by decide +kernel
  unfold exec
  rw [hr]
  dsimp only
  rw [repeat_forEach, indentText_eq]
  congr 1
  simp [List.range_succ]
  norm_num

/-- C47 is violated: a zero step is a conversion of infinity to `int`. -/
theorem C47_violated_zero_step (L : Lib) (depth : Nat) (v : Str) (b e : ℚ) (body : List Node) (r : Run) :
    exec L depth (.loop v b e 0 body) r = .ub := by
  unfold exec rounds
  rw [if_pos rfl]

/-! ### C56: format detection -/

/-- Specification: a text contains a word. -/
def Contains (w t : Str) : Prop := ∃ a b, t = a ++ w ++ b

theorem startsWith_iff : ∀ (p t : Str), startsWith p t = true ↔ ∃ b, t = p ++ b := by
  intro p
  induction p with
  | nil => intro t; exact ⟨fun _ => ⟨t, rfl⟩, fun _ => by unfold startsWith; rfl⟩
  | cons c p ih =>
    intro t
    cases t with
    | nil => simp [startsWith]
    | cons d t =>
      unfold startsWith
      rw [Bool.and_eq_true, beq_iff_eq, ih]
      constructor
      · rintro ⟨rfl, b, rfl⟩; exact ⟨b, rfl⟩
      · rintro ⟨b, h⟩
        injection h with h1 h2
        exact ⟨h1.symm, b, h2⟩

theorem strstr_iff : ∀ (p t : Str), strstr p t = true ↔ Contains p t := by
  intro p t
  induction t with
  | nil =>
    unfold strstr
    rw [startsWith_iff]
    constructor
    · rintro ⟨b, h⟩; exact ⟨[], b, h⟩
    · rintro ⟨a, b, h⟩
      rw [List.append_assoc, eq_comm, List.append_eq_nil_iff] at h
      exact ⟨b, h.2.symm⟩
  | cons c t ih =>
    unfold strstr
    rw [Bool.or_eq_true, startsWith_iff, ih]
    constructor
    · rintro (⟨b, h⟩ | ⟨a, b, h⟩)
      · exact ⟨[], b, h⟩
      · exact ⟨c :: a, b, by rw [h]; rfl⟩
    · rintro ⟨a, b, h⟩
      cases a with
      | nil => exact Or.inl ⟨b, h⟩
      | cons d a =>
        rw [List.append_assoc, List.cons_append] at h
        injection h with h1 h2
        exact Or.inr ⟨a, b, by rw [h2, List.append_assoc]⟩

theorem search_short (p t : Str) (hlen : t.length < 1024) (hz : '\x00' ∉ t) : search p t = .ok (strstr p t) := by
  have : t.takeWhile (· ≠ '\x00') = t := by
    have := List.takeWhile_append_of_pos (p := fun c : Char => decide (c ≠ '\x00')) (l₁ := t) (l₂ := []) ?_
    · simpa using this
    intro x hx
    have : x ≠ '\x00' := fun e => hz (e ▸ hx)
    simpa using this
  unfold search cstring
  rw [if_pos hlen, this]

/-- C56: a file with at least one and less than 1024 characters, none of them zero, is detected as XML exactly if it
contains `/>` or `</`, as simple input exactly if it contains an opening brace but none of them, and is unknown
otherwise.  Missing: longer files, see the theorem below; whatever follows the first 1024 characters is not looked at.
The closing brace is not required. -/
theorem C56_detect_partial (t : Str) (hne : t ≠ []) (hlen : t.length < 1024) (hz : '\x00' ∉ t) :
    ∃ ty, checkType t = .ok ty ∧
      (ty = .xml ↔ Contains "/>".toList t ∨ Contains "</".toList t) ∧
      (ty = .simple ↔ ¬ (Contains "/>".toList t ∨ Contains "</".toList t) ∧ Contains "{".toList t) := by
  have htake : t.take 1024 = t := List.take_of_length_le (by omega)
  unfold checkType
  dsimp only
  rw [htake, if_neg (by simpa using hne), search_short _ t hlen hz, search_short _ t hlen hz, search_short _ t hlen hz,
    search_short _ t hlen hz]
  dsimp only
  have h1 := strstr_iff ['/', '>'] t
  have h2 := strstr_iff ['<', '/'] t
  have h3 := strstr_iff ['{'] t
  show ∃ ty, _ ∧ (_ ↔ Contains ['/', '>'] t ∨ Contains ['<', '/'] t) ∧
    (_ ↔ ¬ (Contains ['/', '>'] t ∨ Contains ['<', '/'] t) ∧ Contains ['{'] t)
  rw [← h1, ← h2, ← h3]
  cases strstr ['/', '>'] t <;> cases strstr ['<', '/'] t <;> cases strstr ['{'] t <;>
    first
      | exact ⟨.xml, rfl, by simp, by simp⟩
      | exact ⟨.simple, rfl, by simp, by simp⟩
      | exact ⟨.unknown, rfl, by simp, by simp⟩

/-- A case of `C56_detect_partial`. -/
example : "a {\n}".toList ≠ [] ∧ "a {\n}".toList.length < 1024 ∧ '\x00' ∉ "a {\n}".toList := by decide

/-- C56: an empty file is rejected. -/
theorem C56_empty : checkType [] = .threw .unknown := rfl

/-- C56 is violated: a simple input of 1024 characters or more without a construct of XML is searched past the end of
the buffer. -/
theorem C56_violated_long (t : Str) (hz : '\x00' ∉ t) (hlen : 1024 ≤ t.length)
    (hx : ¬ Contains "/>".toList (t.take 1024)) : checkType t = .ub := by
  have hl : (t.take 1024).length = 1024 := by rw [List.length_take]; omega
  have hs : search ['/', '>'] (t.take 1024) = .ub := by
    unfold search cstring
    rw [hl, if_neg (by omega), if_neg (fun h => hz (List.mem_of_mem_take h))]
    dsimp only
    rw [if_neg (fun h => hx ((strstr_iff ['/', '>'] _).mp h))]
  unfold checkType
  dsimp only
  rw [hl, if_neg (by omega), hs]

/-- Such a file exists. -/
example : ¬ Contains "/>".toList ((List.replicate 2000 'a').take 1024) := by
  rintro ⟨a, b, h⟩
  have : '/' ∈ (List.replicate 2000 'a').take 1024 := by rw [h]; simp
  have := List.mem_of_mem_take this
  rw [List.mem_replicate] at this
  exact absurd this.2 (by decide)

/-- C56 is violated: one opening brace is enough for simple input. -/
theorem C56_violated_brace : checkType "{".toList = .ok .simple := by decide +kernel

end QDng.SimpleXml
