import Mathlib.Tactic.Ring
import Mathlib.Tactic.Linarith
import Verif.SimpleXml.Model

/-
C48: nested blocks become well formed XML.

Specification: an input is a sequence of items with nested blocks, the output a sequence of tags and comments.
-/

namespace QDng.SimpleXml

open QDng.Common

/-! ### Specification -/

/-- Input with balanced braces. -/
inductive Item where
  | comment
  | assign (v : Str) (first : Piece) (rest : List Piece)
  | attr (name : Str) (first : Piece) (rest : List Piece)
  | block (name : Str) (body : List Item)
  | loop (v b e : Str) (s : Option Str) (body : List Item)

mutual
/-- The lines of an item. -/
def Item.lines : Item → List Line
  | .comment => [.comment]
  | .assign v f r => [.assign v f r]
  | .attr n f r => [.attr n f r]
  | .block n body => .block n :: (itemLines body ++ [.close])
  | .loop v b e s body => .loop v b e s :: (itemLines body ++ [.close])
/-- The lines of several items. -/
def itemLines : List Item → List Line
  | [] => []
  | i :: l => i.lines ++ itemLines l
end

/-- A piece of the output. -/
inductive Event where
  | start (depth : Nat) (name : Str) (attrs : List (Str × Str))
  | single (depth : Nat) (name : Str) (attrs : List (Str × Str))
  | stop (depth : Nat) (name : Str)
  | note (depth : Nat) (text : Str)

/-- The text of attributes. -/
def attrText (attrs : List (Str × Str)) : Str :=
  (attrs.map fun a => [' '] ++ a.1 ++ ['=', '"'] ++ a.2 ++ ['"']).flatten

/-- The text of a piece of the output. -/
def Event.text : Event → Str
  | .start d n a => List.replicate (3 * d) ' ' ++ ['<'] ++ n ++ attrText a ++ ['>', '\n']
  | .single d n a => List.replicate (3 * d) ' ' ++ ['<'] ++ n ++ attrText a ++ ['/', '>', '\n']
  | .stop d n => List.replicate (3 * d) ' ' ++ ['<', '/'] ++ n ++ ['>', '\n']
  | .note d t => List.replicate (3 * d) ' ' ++ t

/-- The text of an output. -/
def render (evs : List Event) : Str := (evs.map Event.text).flatten

/-- The tags of an output nest properly; the second argument are the names of the open elements. -/
def nested : List Event → List Str → Prop
  | [], open' => open' = []
  | .start _ n _ :: l, open' => nested l (n :: open')
  | .single _ _ _ :: l, open' => nested l open'
  | .stop _ n :: l, open' => ∃ rest, open' = n :: rest ∧ nested l rest
  | .note _ _ :: l, open' => nested l open'

/-- Tags without text. -/
inductive Tag where
  | start (name : Str)
  | single (name : Str)
  | stop (name : Str)
  deriving DecidableEq

/-- The tags of an output. -/
def tags : List Event → List Tag
  | [] => []
  | .start _ n _ :: l => .start n :: tags l
  | .single _ n _ :: l => .single n :: tags l
  | .stop _ n :: l => .stop n :: tags l
  | .note _ _ :: l => tags l

/-- Whether an item is a block. -/
def Item.isBlock : Item → Bool
  | .block _ _ => true
  | .loop _ _ _ _ _ => true
  | _ => false

/-- The step of a loop; without one it is 1. -/
def stepOf (L : Lib) : Option Str → Option ℚ
  | none => some 1
  | some t => L.toReal t

/-- The number of times the body of a loop is written. -/
def copies (L : Lib) (b e : Str) (s : Option Str) : Nat :=
  match L.toReal b, L.toReal e, stepOf L s with
  | some x, some y, some z => ⌊|y - x| / |z|⌋.toNat + 1
  | _, _, _ => 0

mutual
/-- The tags expected for an item. -/
def Item.expect (L : Lib) : Item → List Tag
  | .block n body =>
    if body.any Item.isBlock then .start n :: (expectAll L body ++ [.stop n]) else [.single n]
  | .loop _ b e s body => (List.replicate (copies L b e s) (expectAll L body)).flatten
  | _ => []
/-- The tags expected for several items. -/
def expectAll (L : Lib) : List Item → List Tag
  | [] => []
  | i :: l => i.expect L ++ expectAll L l
end

/-! ### From the input to the tree -/

/-- The attributes among some items. -/
def attrsOf : List Item → List (Str × List Elem)
  | [] => []
  | .attr n f r :: l => (n, (f :: r).map Piece.elem) :: attrsOf l
  | _ :: l => attrsOf l

mutual
/-- The finished blocks an item leads to. -/
def Item.nodes (L : Lib) : Item → Option (List Node)
  | .block n body => (nodesOf L body).map fun cs => [.elem n (attrsOf body) cs]
  | .loop v b e s body =>
    match loopFrame L v b e s, nodesOf L body with
    | some (.loop v x y z _), some cs => some [.loop v x y z cs]
    | _, _ => none
  | _ => some []
/-- The finished blocks of several items. -/
def nodesOf (L : Lib) : List Item → Option (List Node)
  | [] => some []
  | i :: l =>
    match i.nodes L, nodesOf L l with
    | some a, some b => some (a ++ b)
    | _, _ => none
end

/-- An open block after some items. -/
def Frame.extend (f : Frame) (attrs : List (Str × List Elem)) (ns : List Node) : Frame :=
  match f with
  | .elem n a cs => .elem n (a ++ attrs) (cs ++ ns)
  | .loop v b e s cs => .loop v b e s (cs ++ ns)

theorem extend_nil (f : Frame) : f.extend [] [] = f := by
  cases f <;> simp [Frame.extend]

theorem bind_ok {A B : Type} (x : Out A) (f : A → Out A) (y : A) (h : x.bind f = .ok y) : ∃ a, x = .ok a ∧ f a = .ok y := by
  cases x with
  | ok a => exact ⟨a, rfl, h⟩
  | threw a => cases h
  | ub => cases h

theorem parse_append (L : Lib) : ∀ (a b : List Line) (st st' : State), parse L (a ++ b) st = .ok st' →
    ∃ s1, parse L a st = .ok s1 ∧ parse L b s1 = .ok st' := by
  intro a
  induction a with
  | nil => intro b st st' h; exact ⟨st, rfl, h⟩
  | cons l a ih =>
    intro b st st' h
    rw [List.cons_append] at h
    unfold parse at h
    obtain ⟨s1, h1, h2⟩ := bind_ok (B := State) _ _ _ h
    obtain ⟨s2, h3, h4⟩ := ih b s1 st' h2
    refine ⟨s2, ?_, h4⟩
    unfold parse
    rw [h1]
    exact h3

/-- A state inside of a block. -/
structure Inside (st : State) : Prop where
  root : st.root = .valid
  depth : st.indent = st.frames.length

/-- The state after some items inside of a block. -/
structure After (L : Lib) (items : List Item) (f : Frame) (fs : List Frame) (st st' : State) : Prop where
  root : st'.root = .valid
  indent : st'.indent = st.indent
  out : st'.run.out = st.run.out
  frames : ∃ ns, nodesOf L items = some ns ∧ st'.frames = f.extend (attrsOf items) ns :: fs

theorem loopFrame_loop (L : Lib) (v b e : Str) (s : Option Str) (f : Frame) (h : loopFrame L v b e s = some f) :
    ∃ x y z, f = .loop v x y z [] ∧ L.toReal b = some x ∧ L.toReal e = some y ∧
      stepOf L s = some z := by
  unfold loopFrame at h
  cases hx : L.toReal b with
  | none => rw [hx] at h; cases h
  | some x =>
    cases hy : L.toReal e with
    | none => rw [hx, hy] at h; cases h
    | some y =>
      rw [hx, hy] at h
      dsimp only at h
      cases s with
      | none => cases h; exact ⟨x, y, 1, rfl, rfl, rfl, rfl⟩
      | some t =>
        dsimp only at h
        cases ht : L.toReal t with
        | none => rw [ht] at h; cases h
        | some z => rw [ht] at h; cases h; exact ⟨x, y, z, rfl, rfl, rfl, ht⟩

theorem finish_nested (L : Lib) (st : State) (n : Node) (h : st.indent ≠ 0) : st.finish L n = .ok st := by
  unfold State.finish
  rw [if_neg h]

theorem parse_single (L : Lib) (l : Line) (st st' : State) (h : parse L [l] st = .ok st') : st.step L l = .ok st' := by
  unfold parse at h
  obtain ⟨s1, h1, h2⟩ := bind_ok (B := State) _ _ _ h
  cases h2
  exact h1

mutual
theorem item_after (L : Lib) : ∀ (i : Item) (f : Frame) (fs : List Frame) (st st' : State), Inside st →
    st.frames = f :: fs → parse L i.lines st = .ok st' →
    st'.root = .valid ∧ st'.indent = st.indent ∧ st'.run.out = st.run.out ∧
      ∃ ns, i.nodes L = some ns ∧ st'.frames = f.extend (attrsOf [i]) ns :: fs
  | .comment, f, fs, st, st', hi, hf, h => by
    have h1 := parse_single L _ _ _ h
    cases h1
    exact ⟨hi.root, rfl, rfl, [], rfl, by rw [hf]; exact congrArg (· :: fs) (extend_nil f).symm⟩
  | .assign v a r, f, fs, st, st', hi, hf, h => by
    have h1 := parse_single L _ _ _ h
    cases h1
    exact ⟨hi.root, rfl, rfl, [], rfl, hf.trans (congrArg (· :: fs) (extend_nil f).symm)⟩
  | .attr n a r, f, fs, st, st', hi, hf, h => by
    have h1 := parse_single L _ _ _ h
    unfold State.step at h1
    rw [hi.root, hf] at h1
    cases f with
    | elem m attrs cs =>
      cases h1
      exact ⟨rfl, rfl, rfl, [], rfl, by simp [Frame.extend, attrsOf]⟩
    | loop v b e s cs => cases h1
  | .block n body, f, fs, st, st', hi, hf, h => by
    unfold Item.lines at h
    unfold parse at h
    obtain ⟨s1, h1, h2⟩ := bind_ok (B := State) _ _ _ h
    unfold State.step State.open' at h1
    rw [hi.root] at h1
    cases h1
    obtain ⟨s2, h3, h4⟩ := parse_append L _ _ _ _ h2
    have hi1 : Inside { st with indent := st.indent + 1, root := .valid, frames := Frame.elem n [] [] :: st.frames } :=
      ⟨rfl, by show st.indent + 1 = ((st.frames.length + 1 : Nat) : Int); rw [hi.depth]; push_cast; rfl⟩
    have ha := items_after L body (.elem n [] []) (f :: fs)
      { st with indent := st.indent + 1, root := .valid, frames := Frame.elem n [] [] :: st.frames } s2 hi1
      (by show _ :: st.frames = _; rw [hf]) h3
    obtain ⟨ns, hn, hfr⟩ := ha.frames
    have h5 := parse_single L _ _ _ h4
    unfold State.step State.close at h5
    rw [hfr] at h5
    dsimp only at h5
    have hind : s2.indent = st.indent + 1 := ha.indent
    rw [finish_nested L _ _ (by
      show s2.indent - 1 ≠ 0
      have := hi.depth
      rw [hf] at this
      simp only [List.length_cons] at this
      rw [hind]
      omega)] at h5
    cases h5
    refine ⟨ha.root, ?_, ha.out, [.elem n (attrsOf body) ns], ?_, ?_⟩
    · show s2.indent - 1 = st.indent
      rw [hind]
      omega
    · unfold Item.nodes
      rw [hn]
      rfl
    · cases f <;> simp [Frame.extend, Frame.addChild, Frame.node, attrsOf]
  | .loop v b e s body, f, fs, st, st', hi, hf, h => by
    unfold Item.lines at h
    unfold parse at h
    obtain ⟨s1, h1, h2⟩ := bind_ok (B := State) _ _ _ h
    unfold State.step at h1
    rw [hi.root] at h1
    dsimp only at h1
    cases hl : loopFrame L v b e s with
    | none => rw [hl] at h1; cases h1
    | some g =>
      rw [hl] at h1
      dsimp only at h1
      unfold State.open' at h1
      rw [hi.root] at h1
      cases h1
      obtain ⟨x, y, z, hg, _⟩ := loopFrame_loop L v b e s g hl
      obtain ⟨s2, h3, h4⟩ := parse_append L _ _ _ _ h2
      have hi1 : Inside { st with indent := st.indent + 1, root := .valid, frames := g :: st.frames } :=
        ⟨rfl, by show st.indent + 1 = ((st.frames.length + 1 : Nat) : Int); rw [hi.depth]; push_cast; rfl⟩
      have ha := items_after L body g (f :: fs) { st with indent := st.indent + 1, root := .valid, frames := g :: st.frames } s2 hi1
        (by show _ :: st.frames = _; rw [hf]) h3
      obtain ⟨ns, hn, hfr⟩ := ha.frames
      have h5 := parse_single L _ _ _ h4
      unfold State.step State.close at h5
      rw [hfr] at h5
      dsimp only at h5
      have hind : s2.indent = st.indent + 1 := ha.indent
      rw [finish_nested L _ _ (by
        show s2.indent - 1 ≠ 0
        have := hi.depth
        rw [hf] at this
        simp only [List.length_cons] at this
        rw [hind]
        omega)] at h5
      cases h5
      subst hg
      refine ⟨ha.root, ?_, ha.out, [.loop v x y z ns], ?_, ?_⟩
      · show s2.indent - 1 = st.indent
        rw [hind]
        omega
      · unfold Item.nodes
        rw [hl, hn]
      · cases f <;> simp [Frame.extend, Frame.addChild, Frame.node, attrsOf]
theorem items_after (L : Lib) : ∀ (items : List Item) (f : Frame) (fs : List Frame) (st st' : State), Inside st →
    st.frames = f :: fs → parse L (itemLines items) st = .ok st' → After L items f fs st st'
  | [], f, fs, st, st', hi, hf, h => by
    cases h
    exact ⟨hi.root, rfl, rfl, [], rfl, by rw [hf]; exact congrArg (· :: fs) (extend_nil f).symm⟩
  | i :: l, f, fs, st, st', hi, hf, h => by
    unfold itemLines at h
    obtain ⟨s1, h1, h2⟩ := parse_append L _ _ _ _ h
    obtain ⟨a1, a2, a3, ns, a4, a5⟩ := item_after L i f fs st s1 hi hf h1
    have hi1 : Inside s1 := ⟨a1, by rw [a2, hi.depth, hf, a5]; rfl⟩
    have hb := items_after L l _ fs s1 st' hi1 a5 h2
    obtain ⟨ms, b4, b5⟩ := hb.frames
    refine ⟨hb.root, hb.indent.trans a2, hb.out.trans a3, ns ++ ms, ?_, ?_⟩
    · unfold nodesOf
      rw [a4, b4]
    · rw [b5]
      have he : attrsOf (i :: l) = attrsOf [i] ++ attrsOf l := by
        cases i <;> simp [attrsOf]
      rw [he]
      cases f <;> simp [Frame.extend]
end

/-! ### From the tree to the output -/

theorem indentText_eq (n : Nat) : indentText n = List.replicate (3 * n) ' ' := by
  induction n with
  | zero => rfl
  | succ n ih =>
    unfold indentText
    rw [ih, show 3 * (n + 1) = 3 + 3 * n by ring, List.replicate_add]
    rfl

theorem printElems_ok (L : Lib) : ∀ (l : List Elem) (r r' : Run), printElems L l r = .ok r' →
    ∃ t, r' = r.put t := by
  intro l
  induction l with
  | nil => intro r r' h; cases h; exact ⟨[], by simp [Run.put]⟩
  | cons e l ih =>
    intro r r' h
    unfold printElems at h
    split at h
    · rename_i s _
      obtain ⟨t, ht⟩ := ih _ _ h
      exact ⟨s ++ t, by rw [ht]; simp [Run.put]⟩
    · cases h

theorem printAttrs_ok (L : Lib) : ∀ (l : List (Str × List Elem)) (r r' : Run), printAttrs L l r = .ok r' →
    ∃ a, r' = r.put (attrText a) := by
  intro l
  induction l with
  | nil => intro r r' h; cases h; exact ⟨[], by simp [Run.put, attrText]⟩
  | cons e l ih =>
    intro r r' h
    obtain ⟨a, v⟩ := e
    unfold printAttrs at h
    obtain ⟨r1, h1, h2⟩ := bind_ok (B := Run) _ _ _ h
    obtain ⟨r2, h3, h4⟩ := bind_ok (B := Run) _ _ _ h2
    obtain ⟨t1, e1⟩ := printElems_ok L _ _ _ h1
    obtain ⟨t2, e2⟩ := printElems_ok L _ _ _ h3
    obtain ⟨as, e3⟩ := ih _ _ h4
    refine ⟨(t1, t2) :: as, ?_⟩
    rw [e3, e2, e1]
    simp [Run.put, attrText]

/-- A proper output: text, nesting and tags. -/
structure Output (evs : List Event) (r r' : Run) (ts : List Tag) : Prop where
  out : r'.out = r.out ++ render evs
  nested : ∀ (l : List Event) (o : List Str), nested l o → nested (evs ++ l) o
  tags : tags evs = ts

theorem tags_append : ∀ a b : List Event, tags (a ++ b) = tags a ++ tags b := by
  intro a
  induction a with
  | nil => intro b; rfl
  | cons e a ih =>
    intro b
    cases e <;> simp [tags, ih]

theorem render_append (a b : List Event) : render (a ++ b) = render a ++ render b := by
  simp [render]

theorem output_append (e1 e2 : List Event) (r r1 r2 : Run) (t1 t2 : List Tag) (h1 : Output e1 r r1 t1)
    (h2 : Output e2 r1 r2 t2) : Output (e1 ++ e2) r r2 (t1 ++ t2) := by
  refine ⟨?_, ?_, ?_⟩
  · rw [h2.out, h1.out, render_append, List.append_assoc]
  · intro l o h
    rw [List.append_assoc]
    exact h1.nested _ _ (h2.nested _ _ h)
  · rw [tags_append, h1.tags, h2.tags]

theorem output_nil (r : Run) : Output [] r r [] := ⟨by simp [render], fun _ _ h => h, rfl⟩

mutual
/-- The tags expected for a finished block. -/
def Node.expect : Node → List Tag
  | .elem n _ [] => [.single n]
  | .elem n _ (c :: cs) => .start n :: (expectNodes (c :: cs) ++ [.stop n])
  | .loop _ b e s cs =>
    match rounds b e s with
    | none => []
    | some n => (List.replicate n (expectNodes cs)).flatten
/-- The tags expected for finished blocks. -/
def expectNodes : List Node → List Tag
  | [] => []
  | c :: cs => c.expect ++ expectNodes cs
end

theorem repeat_output (L : Lib) (v : Str) (s : ℚ) (body : Run → Out Run) (ts : List Tag)
    (hb : ∀ r r', body r = .ok r' → ∃ evs, Output evs r r' ts) : ∀ (n : Nat) (d : ℚ) (r r' : Run),
    repeatLoop L v s body n d r = .ok r' → ∃ evs, Output evs r r' (List.replicate n ts).flatten := by
  intro n
  induction n with
  | zero => intro d r r' h; cases h; exact ⟨[], output_nil r⟩
  | succ n ih =>
    intro d r r' h
    unfold repeatLoop at h
    obtain ⟨r1, h1, h2⟩ := bind_ok (B := Run) _ _ _ h
    obtain ⟨e1, o1⟩ := hb _ _ h1
    obtain ⟨e2, o2⟩ := ih _ _ _ h2
    have o1' : Output e1 r r1 ts := ⟨o1.out, o1.nested, o1.tags⟩
    exact ⟨e1 ++ e2, by rw [List.replicate_succ, List.flatten_cons]; exact output_append _ _ _ _ _ _ _ o1' o2⟩

mutual
theorem exec_output (L : Lib) (n : Node) (depth : Nat) (r r' : Run) (h : exec L depth n r = .ok r') :
    ∃ evs, Output evs r r' n.expect := by
  match n with
  | .elem name attrs [] =>
    unfold exec at h
    obtain ⟨r1, h1, h2⟩ := bind_ok (B := Run) _ _ _ h
    obtain ⟨a, e⟩ := printAttrs_ok L _ _ _ h1
    cases h2
    refine ⟨[.single depth name a], ?_, fun l o h => h, rfl⟩
    rw [e]
    simp [Run.put, render, Event.text, indentText_eq]
  | .elem name attrs (c :: cs) =>
    unfold exec at h
    obtain ⟨r1, h1, h2⟩ := bind_ok (B := Run) _ _ _ h
    obtain ⟨a, e⟩ := printAttrs_ok L _ _ _ h1
    dsimp only at h2
    obtain ⟨r2, h3, h4⟩ := bind_ok (B := Run) _ _ _ h2
    obtain ⟨evs, o⟩ := execAll_output L (c :: cs) (depth + 1) _ _ h3
    cases h4
    refine ⟨.start depth name a :: (evs ++ [.stop depth name]), ?_, ?_, ?_⟩
    · show r2.out ++ _ = _
      rw [o.out, e]
      simp [Run.put, render, Event.text, indentText_eq]
    · intro l open' hn
      show nested ((evs ++ [.stop depth name]) ++ l) (name :: open')
      rw [List.append_assoc]
      refine o.nested _ _ ?_
      exact ⟨open', rfl, hn⟩
    · show Tag.start name :: tags (evs ++ [.stop depth name]) = _
      rw [tags_append, o.tags]
      unfold Node.expect
      rfl
  | .loop v b e s cs =>
    unfold exec at h
    split at h
    · cases h
    · rename_i k hk
      unfold Node.expect
      rw [hk]
      obtain ⟨evs, o⟩ := repeat_output L v s _ (expectNodes cs)
        (fun r r' hr => execAll_output L cs (depth + 1) r r' hr) _ _ _ _ h
      refine ⟨.note depth (loopComment L v b e s) :: evs, ?_, ?_, o.tags⟩
      · rw [o.out]
        simp [Run.put, render, Event.text, indentText_eq]
      · intro l open' hn
        exact o.nested l open' hn
theorem execAll_output (L : Lib) (ns : List Node) (depth : Nat) (r r' : Run) (h : execAll L depth ns r = .ok r') :
    ∃ evs, Output evs r r' (expectNodes ns) := by
  match ns with
  | [] =>
    unfold execAll at h
    cases h
    exact ⟨[], output_nil r⟩
  | c :: cs =>
    unfold execAll at h
    obtain ⟨r1, h1, h2⟩ := bind_ok (B := Run) _ _ _ h
    obtain ⟨e1, o1⟩ := exec_output L c depth r r1 h1
    obtain ⟨e2, o2⟩ := execAll_output L cs depth r1 r' h2
    refine ⟨e1 ++ e2, ?_⟩
    unfold expectNodes
    exact output_append _ _ _ _ _ _ _ o1 o2
end

/-! ### Both expectations agree -/

/-- No loop of the tree is undefined. -/
def Counted : Node → Prop
  | .elem _ _ _ => True
  | .loop _ b e s _ => (rounds b e s).isSome

theorem abs_div_sub (x y z : ℚ) : |(x - y) / z| = |y - x| / |z| := by
  rw [abs_div, abs_sub_comm]

theorem nodes_length (L : Lib) (i : Item) (ns : List Node) (h : i.nodes L = some ns) :
    ns = [] ↔ i.isBlock = false := by
  cases i with
  | comment => unfold Item.nodes at h; cases h; simp [Item.isBlock]
  | assign => unfold Item.nodes at h; cases h; simp [Item.isBlock]
  | attr => unfold Item.nodes at h; cases h; simp [Item.isBlock]
  | block n body =>
    unfold Item.nodes at h
    cases hb : nodesOf L body with
    | none => rw [hb] at h; cases h
    | some cs => rw [hb] at h; cases h; simp [Item.isBlock]
  | loop v b e s body =>
    unfold Item.nodes at h
    split at h
    · cases h; simp [Item.isBlock]
    · cases h

theorem nodesOf_nil (L : Lib) : ∀ (l : List Item) (ns : List Node), nodesOf L l = some ns →
    (ns = [] ↔ l.any Item.isBlock = false) := by
  intro l
  induction l with
  | nil => intro ns h; unfold nodesOf at h; cases h; simp
  | cons i l ih =>
    intro ns h
    unfold nodesOf at h
    split at h
    · rename_i a b ha hb
      cases h
      rw [List.append_eq_nil_iff, nodes_length L i a ha, ih b hb]
      simp
    · cases h

mutual
/-- No loop in the block is undefined. -/
def Node.counted : Node → Prop
  | .elem _ _ cs => countedAll cs
  | .loop _ b e s cs => (rounds b e s).isSome = true ∧ countedAll cs
/-- No loop in the blocks is undefined. -/
def countedAll : List Node → Prop
  | [] => True
  | c :: cs => c.counted ∧ countedAll cs
end

theorem countedAll_append : ∀ a b : List Node, countedAll (a ++ b) ↔ countedAll a ∧ countedAll b := by
  intro a
  induction a with
  | nil => intro b; simp [countedAll]
  | cons c a ih =>
    intro b
    rw [List.cons_append]
    rw [countedAll, ih, countedAll, and_assoc]

theorem expectNodes_append : ∀ a b : List Node, expectNodes (a ++ b) = expectNodes a ++ expectNodes b := by
  intro a
  induction a with
  | nil => intro b; simp [expectNodes]
  | cons c a ih =>
    intro b
    rw [List.cons_append]
    rw [expectNodes, ih, expectNodes, List.append_assoc]

mutual
theorem expect_item (L : Lib) : ∀ (i : Item) (ns : List Node), i.nodes L = some ns → countedAll ns →
    expectNodes ns = i.expect L
  | .comment, ns, h, _ => by unfold Item.nodes at h; cases h; simp [expectNodes, Item.expect]
  | .assign _ _ _, ns, h, _ => by unfold Item.nodes at h; cases h; simp [expectNodes, Item.expect]
  | .attr _ _ _, ns, h, _ => by unfold Item.nodes at h; cases h; simp [expectNodes, Item.expect]
  | .block n body, ns, h, hc => by
    unfold Item.nodes at h
    cases hb : nodesOf L body with
    | none => rw [hb] at h; cases h
    | some cs =>
      rw [hb] at h
      cases h
      have hcs : countedAll cs := by
        unfold countedAll at hc
        have := hc.1
        unfold Node.counted at this
        exact this
      have hx := expect_items L body cs hb hcs
      have hnil := nodesOf_nil L body cs hb
      unfold Item.expect expectNodes
      cases cs with
      | nil =>
        rw [hnil.mp rfl]
        simp [Node.expect, expectNodes]
      | cons c cs =>
        have : body.any Item.isBlock = true := by
          by_contra hn
          exact absurd (hnil.mpr (by simpa using hn)) (by simp)
        rw [this, if_pos rfl]
        unfold Node.expect
        rw [hx]
        simp [expectNodes]
  | .loop v b e s body, ns, h, hc => by
    unfold Item.nodes at h
    cases hl : loopFrame L v b e s with
    | none => rw [hl] at h; cases h
    | some g =>
      obtain ⟨x, y, z, hg, hx, hy, hz⟩ := loopFrame_loop L v b e s g hl
      subst hg
      cases hb : nodesOf L body with
      | none => rw [hl, hb] at h; cases h
      | some cs =>
        rw [hl, hb] at h
        cases h
        unfold countedAll at hc
        have hc1 := hc.1
        unfold Node.counted at hc1
        have hi := expect_items L body cs hb hc1.2
        unfold expectNodes Node.expect Item.expect
        obtain ⟨k, hk⟩ := Option.isSome_iff_exists.mp hc1.1
        rw [hk]
        have hcopies : copies L b e s = k := by
          unfold copies
          rw [hx, hy, hz]
          unfold rounds at hk
          split at hk
          · cases hk
          · split at hk
            · cases hk
              dsimp only
              rw [abs_div_sub]
            · cases hk
        rw [hcopies, hi]
        simp [expectNodes]
theorem expect_items (L : Lib) : ∀ (l : List Item) (ns : List Node), nodesOf L l = some ns → countedAll ns →
    expectNodes ns = expectAll L l
  | [], ns, h, _ => by unfold nodesOf at h; cases h; simp [expectNodes, expectAll]
  | i :: l, ns, h, hc => by
    unfold nodesOf at h
    cases ha : i.nodes L with
    | none => rw [ha] at h; cases h
    | some a =>
      cases hb : nodesOf L l with
      | none => rw [ha, hb] at h; cases h
      | some b =>
        rw [ha, hb] at h
        cases h
        rw [countedAll_append] at hc
        rw [expectNodes_append, expect_item L i a ha hc.1, expect_items L l b hb hc.2, expectAll]
end

theorem repeat_ok (L : Lib) (v : Str) (s : ℚ) (body : Run → Out Run) (n : Nat) (d : ℚ) (r r' : Run)
    (h : repeatLoop L v s body (n + 1) d r = .ok r') : ∃ r1 r2, body r1 = .ok r2 := by
  unfold repeatLoop at h
  obtain ⟨r1, h1, _⟩ := bind_ok (B := Run) _ _ _ h
  exact ⟨_, _, h1⟩

mutual
theorem exec_counted (L : Lib) (n : Node) (depth : Nat) (r r' : Run) (h : exec L depth n r = .ok r') : n.counted := by
  match n with
  | .elem name attrs [] => unfold Node.counted countedAll; trivial
  | .elem name attrs (c :: cs) =>
    unfold exec at h
    obtain ⟨r1, h1, h2⟩ := bind_ok (B := Run) _ _ _ h
    dsimp only at h2
    obtain ⟨r2, h3, _⟩ := bind_ok (B := Run) _ _ _ h2
    unfold Node.counted
    exact execAll_counted L (c :: cs) (depth + 1) _ _ h3
  | .loop v b e s cs =>
    unfold exec at h
    unfold Node.counted
    split at h
    · cases h
    · rename_i k hk
      have hk' := hk
      unfold rounds at hk'
      split at hk'
      · cases hk'
      · split at hk'
        · cases hk'
          obtain ⟨r1, r2, h3⟩ := repeat_ok L v s _ _ _ _ _ h
          exact ⟨by rw [hk]; rfl, execAll_counted L cs (depth + 1) _ _ h3⟩
        · cases hk'
theorem execAll_counted (L : Lib) (ns : List Node) (depth : Nat) (r r' : Run) (h : execAll L depth ns r = .ok r') :
    countedAll ns := by
  match ns with
  | [] => unfold countedAll; trivial
  | c :: cs =>
    unfold execAll at h
    obtain ⟨r1, h1, h2⟩ := bind_ok (B := Run) _ _ _ h
    unfold countedAll
    exact ⟨exec_counted L c depth r r1 h1, execAll_counted L cs depth r1 r' h2⟩
end

/-! ### The property -/

/-- Items that may stand before the block: comments and assignments. -/
def Item.plain : Item → Prop
  | .comment => True
  | .assign _ _ _ => True
  | _ => False

theorem plain_parse (L : Lib) : ∀ (l : List Item), (∀ i ∈ l, i.plain) → ∀ st st' : State,
    parse L (itemLines l) st = .ok st' →
    st'.indent = st.indent ∧ st'.root = st.root ∧ st'.frames = st.frames ∧ st'.run.out = st.run.out := by
  intro l
  induction l with
  | nil => intro _ st st' h; cases h; exact ⟨rfl, rfl, rfl, rfl⟩
  | cons i l ih =>
    intro hp st st' h
    unfold itemLines at h
    obtain ⟨s1, h1, h2⟩ := parse_append L _ _ _ _ h
    have hi := hp i List.mem_cons_self
    have ih' := ih (fun j hj => hp j (List.mem_cons_of_mem _ hj)) s1 st' h2
    cases i with
    | comment => cases parse_single L _ _ _ h1; exact ih'
    | assign v f r => cases parse_single L _ _ _ h1; exact ih'
    | attr => exact absurd hi id
    | block => exact absurd hi id
    | loop => exact absurd hi id

/-- C48: for every input of one block, with comments and assignments around it and with blocks and loops nested to
any depth inside of it, that is translated without an error, the output is a sequence of tags and comments, the
tags nest properly, and they are those of the blocks in the order of the input.  Missing: several blocks and
unbalanced braces, see the theorems below. -/
theorem C48_nesting_partial (L : Lib) (vars : Vars) (pre post : List Item) (name : Str) (body : List Item)
    (hpre : ∀ i ∈ pre, i.plain) (hpost : ∀ i ∈ post, i.plain) (st : State)
    (h : parse L (itemLines (pre ++ .block name body :: post)) (State.init vars) = .ok st) :
    ∃ evs, st.run.out = render evs ∧ nested evs [] ∧ tags evs = (Item.block name body).expect L := by
  have hlines : ∀ a b : List Item, itemLines (a ++ b) = itemLines a ++ itemLines b := by
    intro a
    induction a with
    | nil => intro b; simp [itemLines]
    | cons i a ih => intro b; rw [List.cons_append]; simp [itemLines, ih]
  rw [hlines] at h
  obtain ⟨s1, h1, h2⟩ := parse_append L _ _ _ _ h
  obtain ⟨p1, p2, p3, p4⟩ := plain_parse L pre hpre _ _ h1
  have e : itemLines (.block name body :: post) = Line.block name :: (itemLines body ++ ([.close] ++ itemLines post)) := by
    conv => lhs; unfold itemLines Item.lines
    simp
  rw [e] at h2
  unfold parse at h2
  obtain ⟨s2, h3, h4⟩ := bind_ok (B := State) _ _ _ h2
  unfold State.step State.open' at h3
  have p2' : s1.root = .null := p2
  rw [p2'] at h3
  cases h3
  obtain ⟨s3, h5, h6⟩ := parse_append L _ _ _ _ h4
  obtain ⟨s4, h7, h8⟩ := parse_append L _ _ _ _ h6
  have p3' : s1.frames = [] := p3
  have p1' : s1.indent = 0 := p1
  have ha := items_after L body (.elem name [] []) []
    { s1 with indent := s1.indent + 1, root := .valid, frames := .elem name [] [] :: s1.frames } s3
    ⟨rfl, by show s1.indent + 1 = ((s1.frames.length + 1 : Nat) : Int); rw [p1', p3']; rfl⟩
    (by show _ :: s1.frames = _; rw [p3']) h5
  obtain ⟨ns, hn, hf⟩ := ha.frames
  have h9 := parse_single L _ _ _ h7
  unfold State.step State.close at h9
  rw [hf] at h9
  dsimp only at h9
  unfold State.finish at h9
  have hind : s3.indent = s1.indent + 1 := ha.indent
  rw [if_pos (by show s3.indent - 1 = 0; rw [hind, p1']; rfl)] at h9
  have hnode : (Frame.extend (Frame.elem name [] []) (attrsOf body) ns).node = Node.elem name (attrsOf body) ns := by
    simp [Frame.extend, Frame.node]
  rw [hnode] at h9
  have hp := plain_parse L post hpost _ _ h8
  dsimp only at h9
  split at h9
  · rename_i r hr
    cases h9
    obtain ⟨evs, o⟩ := exec_output L _ 0 _ _ hr
    have hc := exec_counted L _ 0 _ _ hr
    refine ⟨evs, ?_, ?_, ?_⟩
    · rw [hp.2.2.2]
      show r.out = _
      rw [o.out]
      have : s3.run.out = [] := by
        rw [ha.out]
        exact p4
      rw [this]
      rfl
    · have := o.nested [] [] rfl
      rwa [List.append_nil] at this
    · rw [o.tags]
      have hx := expect_item L (.block name body) [Node.elem name (attrsOf body) ns]
        (by unfold Item.nodes; rw [hn]; rfl) (by unfold countedAll; exact ⟨hc, by unfold countedAll; trivial⟩)
      rw [← hx]
      unfold expectNodes
      simp [expectNodes]
  · cases h9
  · cases h9

/-! ### Defects -/

/-- C48 is violated: a missing closing brace is not reported, and nothing is written. -/
theorem C48_violated_missing_brace (L : Lib) (vars : Vars) : ∃ st,
    parse L [.block "a".toList, .block "b".toList, .close] (State.init vars) = .ok st ∧ st.run.out = [] :=
  ⟨_, rfl, rfl⟩

/-- C48 is violated: a second block at the top level uses a deleted object. -/
theorem C48_violated_second_block (L : Lib) (vars : Vars) :
    parse L [.block "a".toList, .close, .block "b".toList, .close] (State.init vars) = .ub := rfl

/-- C48 is violated: a closing brace too much is not reported but uses a null pointer or a deleted object. -/
theorem C48_violated_extra_brace (L : Lib) (vars : Vars) :
    parse L [.close] (State.init vars) = .ub ∧
    parse L [.block "a".toList, .close, .close] (State.init vars) = .ub := ⟨rfl, rfl⟩

/-- A library for examples: numbers are not used. -/
def plainLib : Lib :=
  { toInt := fun _ => none, toReal := fun s => if s = ['1'] then some 1 else if s = ['3'] then some 3 else none
    fmtInt := fun f _ => f, fmtReal := fun f _ => f, fmtStr := fun _ s => s, fmtG := fun _ => ['1']
    fmtOut := fun _ => ['n'] }

/-- The hypotheses of `C48_nesting_partial` are met by an input with nested blocks, a loop and an attribute. -/
example : ∃ st, parse plainLib (itemLines ([.comment] ++ .block "a".toList
    [.attr "k".toList (.token "v".toList) [], .loop "i".toList ['1'] ['3'] none [.block "b".toList []]] :: []))
    (State.init fun _ => []) = .ok st := by
  have h : (match parse plainLib (itemLines ([.comment] ++ .block "a".toList
      [.attr "k".toList (.token "v".toList) [], .loop "i".toList ['1'] ['3'] none [.block "b".toList []]] :: []))
      (State.init fun _ => []) with | .ok _ => true | _ => false) = true := by decide +kernel
  split at h
  · exact ⟨_, by assumption⟩
  · cases h

end QDng.SimpleXml
