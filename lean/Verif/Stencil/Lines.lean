import Verif.Stencil.Lemmas
import Verif.Grid.Props

/-
A loop over all lines of a grid along one dimension.
-/

namespace QDng.Stencil

open QDng.Common QDng.Grid

theorem lines_acts {A : Type} (sizes : List Nat) (d n : Nat) (hn : sizes[d]? = some n)
    (body : Nat → List A → Option (List A)) (g : Nat → A → A)
    (h : ∀ r, r < numOthersOf sizes d → Acts (prodL sizes) (body r)
      (fun q => ∃ x, x < n ∧ q = formula (lowOthersOf sizes d) n x r) g) :
    Acts (prodL sizes) (loop (numOthersOf sizes d) body) (fun q => q < prodL sizes) g := by
  refine (acts_loop (numOthersOf sizes d) body _ g h ?_).mono (fun s _ => rfl) ?_ (fun _ _ => rfl)
  · rintro k k' hk hk' q ⟨x, hx, e⟩ ⟨x', hx', e'⟩
    exact (formula_inj sizes d n k k' x x' hn hk hx hk' hx' (by rw [← e, ← e'])).2
  · intro q
    constructor
    · intro hq
      obtain ⟨cs, h1, h2⟩ := place_surj sizes q hq
      have hd := getElem?_lt hn
      have hc : cs[d]? = some (cs[d]'(by rw [valid_length h1]; exact hd)) :=
        List.getElem?_eq_getElem _
      obtain ⟨_, h4, h5⟩ := formula_place sizes cs d _ n h1 hc hn
      exact ⟨_, h4, _, valid_lt h1 hc hn, by rw [← h2]; exact h5.symm⟩
    · rintro ⟨r, hr, x, hx, rfl⟩
      obtain ⟨cs, h1, _, _, h4, _⟩ := formula_coords sizes d n r x hn hr hx
      rw [h4]; exact place_lt h1

theorem valid_set (sizes cs : List Nat) (d c n i : Nat) (hv : Valid cs sizes)
    (hc : cs[d]? = some c) (hn : sizes[d]? = some n) (hi : i < n) :
    Valid (cs.set d i) sizes ∧ place (cs.set d i) sizes + c * lowOthersOf sizes d =
      place cs sizes + i * lowOthersOf sizes d := by
  have hp : Prepared { assign { sizes := [] } { sizes := sizes } with active := some (d, n) } sizes d :=
    ⟨{ sizes := [] }, { sizes := sizes }, rfl, by
      unfold activeDim
      show (match sizes[d]? with | none => none | some n => some _) = _
      rw [hn]⟩
  obtain ⟨b, lo, h1, h2, h3, h4⟩ := C19_walk _ sizes cs d c n i hp hv hc hn hi
  obtain ⟨b', lo', k1, k2, k3, k4⟩ := C19_walk _ sizes cs d c n c hp hv hc hn (valid_lt hv hc hn)
  obtain ⟨_, _, _, _, p1, _⟩ := prepared_spec hp
  rw [h1] at k1
  rw [h2] at k2
  rw [h2] at p1
  simp only [Option.some.injEq] at k1 k2 p1
  subst k1 k2 p1
  have : cs.set d c = cs := by
    apply List.ext_getElem?
    intro j
    by_cases e : j = d
    · subst e
      rw [List.getElem?_set_self (getElem?_lt hc), hc]
    · rw [List.getElem?_set_ne (fun h => e h.symm)]
  rw [this] at k3
  refine ⟨h4, by omega⟩

/-- Values of the line through the point `q`, position by position. -/
def lineOf {K : Type} [Zero K] (inp : List K) (lo n q : Nat) (y : Nat) : K :=
  inp.getD (q - q / lo % n * lo + y * lo) 0

theorem lineOf_formula {K : Type} [Zero K] (inp : List K) (sizes : List Nat) (d n r x : Nat)
    (hn : sizes[d]? = some n) (hr : r < numOthersOf sizes d) (hx : x < n) :
    lineOf inp (lowOthersOf sizes d) n (formula (lowOthersOf sizes d) n x r) =
      fun y => inp.getD (formula (lowOthersOf sizes d) n y r) 0 := by
  obtain ⟨cs, h1, h2, h3, h4, h5⟩ := formula_coords sizes d n r x hn hr hx
  have hc := coord_of_place sizes cs d x n h1 h2 hn
  funext y
  unfold lineOf
  rw [← h4] at hc
  rw [hc]
  congr 1
  unfold formula
  omega

end QDng.Stencil
