import Verif.Lzw
/-!
# Model of `utils/lzw.cpp`: the pruning of the dictionary by LZWp

`LZWpCompress` and `LZWpDecompress` differ from LZW (`Lzw.lean`) in the clear code: the items of the
dictionary which were used are kept and get new codes.

Simplified as in `Lzw.lean`; the items of the compressor are visited from the newest one (in the code:
by the previous code), they go through a `std::map` which orders them.
-/

namespace LS.Lzw

/-- `std::map::insert` for a map from codes, held in the order of keys; a key already present stays. -/
def mapInsert (k : Nat) (v : Nat × Nat) : List (Nat × Nat × Nat) → List (Nat × Nat × Nat)
  | [] => [(k, v)]
  | (k', v') :: l => if k < k' then (k, v) :: (k', v') :: l else if k = k' then (k', v') :: l else (k', v') :: mapInsert k v l

/-- lzw.cpp:30-35: the items which are marked and older than the last 33, by code. -/
def revMap (marked : List Nat) (stop : Nat) : List (Nat × Nat × Nat) → List (Nat × Nat × Nat)
  | [] => []
  | (p, b, c) :: l => if c ∈ marked ∧ c < stop then mapInsert c (p, b) (revMap marked stop l) else revMap marked stop l

/-- `std::map::find`. -/
def lookup (k : Nat) : List (Nat × Nat) → Option Nat
  | [] => none
  | (k', v) :: l => if k' = k then some v else lookup k l

/-- lzw.cpp:42-62: the loop over the items kept; `cm` is `codeMap`. -/
def Comp.renumber (c : Comp) : (cm : List (Nat × Nat)) → List (Nat × Nat × Nat) → Option Comp
  | _, [] => some c
  | cm, (code, p, b) :: l =>
    let new := c.next
    let c1 := ({ c with next := new + 1 } : Comp).increaseBits new
    match if p ≥ firstChainCode then lookup p cm else some p with
    | none => none
    | some p' => Comp.renumber { c1 with dict := (p', b, new) :: c1.dict } ((code, new) :: cm) l

/-- lzw.cpp:20-23, 25-62 `LZWpCompress::onClearCode`, `optimizeDictionary`; `lzwpDictSpace` is 32. -/
def Comp.onClearP (c : Comp) : Option Comp :=
  let c1 := c.writeCode clearCode
  let items := revMap c1.marked (c1.next - 33) c1.dict
  Comp.renumber { c1 with next := 258, bits := 9, dict := [], marked := [] } [] items

/-- lzw.h: `LZWpCompress`. -/
def compP : Conv Comp Nat Nat := compOf Comp.onClearP

/-- lzw.cpp:122-141: the loop over the items `i`, `i+1`, … which remain; `ot` is `optTable` (0, which is
not a code, where there is nothing), `nt` is `newTable`. -/
def renumberD (marked : List Nat) : (i next bits : Nat) → (ot : List (Nat × Nat)) → (nt : List (Nat × Nat)) →
    List (Nat × Nat) → Option (List (Nat × Nat) × Nat)
  | _, _, bits, _, nt, [] => some (nt, bits)
  | i, next, bits, ot, nt, (p, b) :: l =>
    if firstChainCode + i ∈ marked then
      match if p ≥ firstChainCode then lookup (p - firstChainCode) ot else some p with
      | none => none
      | some p' => renumberD marked (i + 1) (next + 1) (if next + 1 = 2 ^ bits then bits + 1 else bits) ((i, next) :: ot) (nt ++ [(p', b)]) l
    else renumberD marked (i + 1) next bits ot nt l

/-- lzw.cpp:106-153 `LZWpDecompress::onClearCode`, `optimizeDictionary`; with less than 32 items `maxDict`
wraps and the loop reads behind the dictionary. -/
def Core.onClearP (c : Core) : Option Core :=
  if c.dict.length < 32 then none
  else (renumberD c.marked 0 258 9 [] [] (c.dict.take (c.dict.length - 32))).map fun r =>
    { c with dict := r.1, bits := r.2, marked := [], hasItems := false, prev := nullChainCode }

/-- lzw.h: `LZWpDecompress`. -/
def decP : Conv Dec Nat Nat := decOf Core.onClearP

end LS.Lzw
