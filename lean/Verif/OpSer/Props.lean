import Verif.OpSer.Model
import Verif.Serial.Props
import Verif.Wire.Props

/-!
Properties of the serialisation of operators on a grid.
-/

namespace QDng.OpSer

open QDng.Serial QDng.Wire

/-- The part before the data. -/
theorem opDeser_head (c : Codec GridHdr) (mem : Nat) (h : GridHdr) (n : Nat) (d : List Byte)
    (hdims : h.dims = h.dim.length ∧ h.dims ≠ 0) (hprod : (h.dim.map (fun d => d.1)).prod = n) (hlen : n < 2 ^ 31)
    (hmem : 8 * n ≤ mem) (hhdr : (c.enc h).length < 2 ^ 32) (hvalid : c.valid h) :
    opDeser c mem { rest := le 4 (c.enc h).length ++ c.enc h ++ d, fail := false }
      = (if ((In.mk d false).read (8 * n)).1.length < 8 * n then .indet
        else .ok ({ h with dataSize := n * 8 }, decDs n ((In.mk d false).read (8 * n)).1)
          ((In.mk d false).read (8 * n)).2) := by
  have hgrid := gridSize_prod h n hdims hprod hlen
  unfold opDeser
  simp only [List.append_assoc]
  rw [read_append _ _ 4 (le_length _ _)]
  simp only
  rw [le_length, if_neg (by omega), unle_le_of_lt hhdr, read_append _ _ _ rfl]
  simp only
  rw [if_neg (by omega), c.dec_enc _ hvalid]
  simp only
  rw [hgrid]
  simp only
  rw [if_neg (by omega)]

/-- **C325.**  Reading back a serialised operator on a grid returns the grid and the values, and leaves what follows in the
stream. -/
theorem C325_roundtrip (c : Codec GridHdr) (mem : Nat) (h : GridHdr) (v : List Dbl) (r : List Byte)
    (hdims : h.dims = h.dim.length ∧ h.dims ≠ 0) (hprod : (h.dim.map (fun d => d.1)).prod = v.length)
    (hlen : v.length < 2 ^ 31) (hmem : 8 * v.length ≤ mem)
    (hhdr : (c.enc { h with dataSize := v.length * 8 }).length < 2 ^ 32)
    (hvalid : c.valid { h with dataSize := v.length * 8 }) :
    opDeser c mem { rest := opSer c h v ++ r, fail := false }
      = .ok ({ h with dataSize := v.length * 8 }, v) { rest := r, fail := false } := by
  have e := opDeser_head c mem (GridHdr.mk h.dims h.dim (v.length * 8)) v.length (encDs v ++ r) hdims hprod hlen hmem hhdr
    hvalid
  rw [read_append _ _ _ (encDs_length v)] at e
  simp only [encDs_length, decDs_enc] at e
  rw [if_neg (by omega)] at e
  rw [← e]
  unfold opSer sizeBytesD
  simp only [List.append_assoc]

/-- **C325 for the wire format.** -/
theorem C325_roundtrip_wire (mem : Nat) (h : GridHdr) (v : List Dbl) (r : List Byte)
    (hdims : h.dims = h.dim.length ∧ h.dims ≠ 0) (hprod : (h.dim.map (fun d => d.1)).prod = v.length)
    (hlen : v.length < 2 ^ 31) (hmem : 8 * v.length ≤ mem)
    (hhdr : (gridCodec.enc { h with dataSize := v.length * 8 }).length < 2 ^ 32)
    (hvalid : gridValid { h with dataSize := v.length * 8 }) :
    opDeser gridCodec mem { rest := opSer gridCodec h v ++ r, fail := false }
      = .ok ({ h with dataSize := v.length * 8 }, v) { rest := r, fail := false } :=
  C325_roundtrip gridCodec mem h v r hdims hprod hlen hmem hhdr hvalid

/-- **C326 (part: headers).**  A header that can not be parsed, and a grid that does not fit into the memory, are refused. -/
theorem C326_partial (c : Codec GridHdr) (mem : Nat) (b d : List Byte) (hb : b.length < 2 ^ 32)
    (h : c.dec b = none ∨ ∃ g n, c.dec b = some g ∧ gridSize g = some n ∧ mem < 8 * n) :
    opDeser c mem { rest := le 4 b.length ++ b ++ d, fail := false } = .threw := by
  unfold opDeser
  simp only [List.append_assoc]
  rw [read_append _ _ 4 (le_length _ _)]
  simp only
  rw [le_length, if_neg (by omega), unle_le_of_lt hb, read_append _ _ _ rfl]
  simp only
  rw [if_neg (by omega)]
  rcases h with h | ⟨g, n, h1, h2, h3⟩
  · rw [h]
  · rw [h1]
    simp only
    rw [h2]
    simp only
    rw [if_pos h3]

/-- **C326 is false for files that are too short**: whenever bytes of the data are missing the operator is returned with
values that were never set. -/
theorem C326_violated_short (c : Codec GridHdr) (mem : Nat) (h : GridHdr) (n : Nat) (d : List Byte)
    (hdims : h.dims = h.dim.length ∧ h.dims ≠ 0) (hprod : (h.dim.map (fun d => d.1)).prod = n) (hlen : n < 2 ^ 31)
    (hmem : 8 * n ≤ mem) (hhdr : (c.enc h).length < 2 ^ 32) (hvalid : c.valid h) (hd : d.length < 8 * n) :
    opDeser c mem { rest := le 4 (c.enc h).length ++ c.enc h ++ d, fail := false } = .indet := by
  rw [opDeser_head c mem h n d hdims hprod hlen hmem hhdr hvalid, read_short hd]
  rw [if_pos hd]

/-- **C326 is false for files of wave functions**: every serialised grid wave function is accepted as an operator; the data
size in the header is not looked at, and half of the data is left in the stream. -/
theorem C326_violated_kind (c : Codec GridHdr) (mem : Nat) (h : GridHdr) (v : List (Dbl × Dbl))
    (hdims : h.dims = h.dim.length ∧ h.dims ≠ 0) (hprod : (h.dim.map (fun d => d.1)).prod = v.length)
    (hlen : v.length < 2 ^ 31) (hmem : 8 * v.length ≤ mem)
    (hhdr : (c.enc { h with dataSize := sizeBytes v }).length < 2 ^ 32)
    (hvalid : c.valid { h with dataSize := sizeBytes v }) :
    ∃ w rest, opDeser c mem { rest := gridSer c h v, fail := false }
        = .ok ({ h with dataSize := v.length * 8 }, w) { rest := rest, fail := false }
      ∧ rest.length = 8 * v.length := by
  have hl : 8 * v.length ≤ (v.flatMap encC).length := by rw [flatMap_encC_length]; omega
  have e := opDeser_head c mem (GridHdr.mk h.dims h.dim (sizeBytes v)) v.length (v.flatMap encC) hdims hprod hlen hmem hhdr
    hvalid
  rw [read_long hl] at e
  simp only [List.length_take, Nat.min_eq_left hl] at e
  rw [if_neg (by omega)] at e
  refine ⟨_, (v.flatMap encC).drop (8 * v.length), e, ?_⟩
  rw [List.length_drop, flatMap_encC_length]
  omega

/-! ### The hypotheses are met -/

/-- A grid of 2 x 3 points with six values; a codec with the assumptions is the wire format. -/
example :
    let h : GridHdr := { dims := 2, dim := [(2, 0, 1), (3, 0, 1)], dataSize := 48 }
    (h.dims = h.dim.length ∧ h.dims ≠ 0) ∧ (h.dim.map (fun d => d.1)).prod = [1, 2, 3, 4, 5, (6 : Dbl)].length := by
  decide

/-- A codec that knows one header, which it writes as one byte, and refuses everything else; a truncated file. -/
example : ∃ c : Codec GridHdr, c.dec [1] = none
    ∧ opDeser c 100 { rest := le 4 1 ++ [0] ++ [1, 2, 3], fail := false } = .indet :=
  ⟨⟨fun _ => [0], fun b => if b = [0] then some ⟨1, [(2, 0, 1)], 16⟩ else none, fun h => h = ⟨1, [(2, 0, 1)], 16⟩,
    fun h hv => by rw [hv]; rfl⟩, by decide, by decide⟩

end QDng.OpSer
