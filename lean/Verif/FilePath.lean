/-
Model of `FilePathT` and of the chains `base / "a" / parent / nil`
(/repo/src/lightspeed/utils/FilePath.h:18-402, the values of the configuration
in utils/linux/FilePath.cpp:13-21 and utils/windows/FilePath.cpp:13-20).

Texts are lists of characters.  `naturalNull` as a position is `none` (a text is
shorter than 2^64-1).  The separators have one character in both configurations
and are characters here, so `find(ConstStrW)` is the search of a character.  The
conversion of a narrow text from UTF-8 (FilePath.h:111-152) is modelled
elsewhere; here a step of a chain is a wide text.
-/
namespace LS.FilePath

abbrev Text := List Char

/-- `FilePathConfig`, FilePath.h:18-26.  `parentDir` is `..` in both. -/
structure Cfg where
  dirSep : Char
  rootSep : Char
  extSep : Char
  nodrive : Bool
deriving DecidableEq

/-- utils/linux/FilePath.cpp:13-21. -/
def linux : Cfg := ⟨'/', '/', '.', true⟩

/-- utils/windows/FilePath.cpp:13-20. -/
def windows : Cfg := ⟨'\\', '\\', '.', false⟩

/-- `parentDir`, both configurations. -/
def parentDir : Text := ['.', '.']

/-- `ArrayT::find`, base/containers/arrayt.h:495-518, for one character. -/
def find (c : Char) : Text → Option Nat
  | [] => none
  | x :: r => if x = c then some 0 else (find c r).map (· + 1)

/-- `ArrayT::findLast`, base/containers/arrayt.h:541-560: a search in the text
read backwards. -/
def findLast (c : Char) (l : Text) : Option Nat :=
  (find c l.reverse).map fun p => l.length - p - 1

/-- `ArrayT::head`, arrayt.h:273-280. -/
def head (l : Text) (n : Nat) : Text := l.take n

/-- `ArrayT::offset`, arrayt.h:281-288. -/
def offset (l : Text) (n : Nat) : Text := l.drop n

/-- `ArrayT::tail`, arrayt.h:289-296. -/
def tail (l : Text) (n : Nat) : Text := l.drop (l.length - n)

/-- `FilePathT`: the text and the remembered position `pathFileSep`
(FilePath.h:287); `none` is memory without a value, `some none` is
`naturalNull`. -/
structure FP where
  s : Text
  sep : Option (Option Nat)
deriving DecidableEq

/-- The default constructor, FilePath.h:230: `pathFileSep` gets no value. -/
def FP.empty : FP := ⟨[], none⟩

/-- The constructor from a text, FilePath.h:312-314. -/
def FP.mk1 (t : Text) : FP := ⟨t, some none⟩

/-- The constructor with `isDirectory`, FilePath.h:316-325. -/
def FP.mk2 (g : Cfg) (t : Text) (dir : Bool) : FP :=
  if dir = true ∧ tail t 1 ≠ [g.dirSep] then ⟨t ++ [g.dirSep], some none⟩ else ⟨t, some none⟩

/-- `operator=`, FilePath.h:328-334. -/
def FP.assign (_f : FP) (o : FP) : FP := ⟨o.s, some none⟩

/-- `getPath`, FilePath.h:336-344; `none` is the read of a position without a
value. -/
def FP.getPath (g : Cfg) (f : FP) : Option Text :=
  if tail f.s 2 = parentDir then some f.s else
    match f.sep with
    | none => none
    | some (some k) => some (head f.s k)
    | some none =>
      match findLast g.dirSep f.s with
      | none => some []
      | some k => some (head f.s k)

/-- The object after `getPath`: the position is remembered. -/
def FP.touch (g : Cfg) (f : FP) : FP :=
  if tail f.s 2 = parentDir then f else
    match f.sep with
    | none => f
    | some (some _) => f
    | some none => { f with sep := some (findLast g.dirSep f.s) }

/-- `getFilename`, FilePath.h:346-350. -/
def FP.getFilename (g : Cfg) (f : FP) : Option Text :=
  (f.getPath g).map fun path => offset f.s (path.length + 1)

/-- `getDrive`, FilePath.h:352-357. -/
def FP.getDrive (g : Cfg) (f : FP) : Text :=
  match find g.rootSep f.s with
  | none => []
  | some p => head f.s p

/-- The part of `getTitle` after `getFilename`, FilePath.h:361-364. -/
def titleOf (g : Cfg) (n : Text) : Text :=
  match findLast g.extSep n with
  | none => n
  | some p => head n p

/-- The part of `getExtension` after `getFilename`, FilePath.h:369-372. -/
def extOf (g : Cfg) (n : Text) : Text :=
  match findLast g.extSep n with
  | none => []
  | some p => offset n (p + 1)

/-- `getTitle`, FilePath.h:359-365. -/
def FP.getTitle (g : Cfg) (f : FP) : Option Text := (f.getFilename g).map (titleOf g)

/-- `getExtension`, FilePath.h:367-373. -/
def FP.getExtension (g : Cfg) (f : FP) : Option Text := (f.getFilename g).map (extOf g)

/-- `getParentPath`, FilePath.h:375-381. -/
def FP.getParentPath (g : Cfg) (f : FP) : Option Text :=
  (f.getPath g).map fun path =>
    match findLast g.dirSep path with
    | none => []
    | some p => head path p

/-- The text without its last part, FilePath.h:278-280. -/
def cut1 (g : Cfg) (z : Text) : Text :=
  match findLast g.dirSep z with
  | none => []
  | some k => head z k

/-- `calcParents`, FilePath.h:271-284: the text that is left and the number of
parents still to skip. -/
def calcParents (g : Cfg) (abs : Bool) : Nat → Text → Text × Nat
  | 0, z => (z, 0)
  | p + 1, z =>
    if z.isEmpty then (z, if abs then 0 else p + 1)
    else calcParents g abs p (cut1 g z)

/-- A chain: `FilePathT`, `FilePathChain<ConstStrW,…>`,
`FilePathChain<PathParent,…>` and `FilePathChain<NullType,…>`,
FilePath.h:44-225. -/
inductive Chain where
  | base (f : FP)
  | str (h : Text) (t : Chain)
  | par (t : Chain)
  | nl (t : Chain)
deriving DecidableEq

/-- The flag `driveabs`, FilePath.h:57-58. -/
def driveabs (g : Cfg) (h : Text) : Bool := find g.rootSep h == some 0

/-- The flag `abs`, FilePath.h:59. -/
def isAbs (g : Cfg) (h : Text) : Bool :=
  (g.nodrive && driveabs g h) || (!g.nodrive && (find g.rootSep h).isSome)

/-- `getDrive` of a chain, FilePath.h:96-102, 183-185, 219-221. -/
def Chain.getDrive (g : Cfg) : Chain → Text
  | base f => f.getDrive g
  | str h t => if isAbs g h then head h ((find g.rootSep h).getD 0) else t.getDrive g
  | par t => t.getDrive g
  | nl t => t.getDrive g

/-- `writePath`: the text that is written and the number of parents left,
FilePath.h:63-78, 164-173, 209-212, 263-267. -/
def Chain.writePath (g : Cfg) : Chain → Nat → Option (Text × Nat)
  | base f, p => (f.getPath g).map (calcParents g true p)
  | str h t, p =>
    let r := calcParents g (isAbs g h || driveabs g h) p h
    if isAbs g h then some r
    else if driveabs g h then some (t.getDrive g ++ g.rootSep :: r.1, r.2)
    else (t.writePath g r.2).map fun w => (w.1 ++ g.dirSep :: r.1, w.2)
  | par t, p =>
    (t.writePath g (p + 1)).map fun w =>
      if w.2 ≠ 0 then (w.1 ++ g.dirSep :: parentDir, w.2 - 1) else w
  | nl t, p => t.writePath g p

/-- `getPathLength`, FilePath.h:85-95, 174-182, 213-215, 258-261. -/
def Chain.getPathLength (g : Cfg) : Chain → Nat → Option (Nat × Nat)
  | base f, p => (f.getPath g).map fun h => ((calcParents g true p h).1.length, (calcParents g true p h).2)
  | str h t, p =>
    let r := calcParents g (isAbs g h || driveabs g h) p h
    if isAbs g h then some (r.1.length, r.2)
    else if driveabs g h then some (r.1.length + 1 + (t.getDrive g).length, r.2)
    else (t.getPathLength g r.2).map fun w => (w.1 + 1 + r.1.length, w.2)
  | par t, p =>
    (t.getPathLength g (p + 1)).map fun w =>
      if w.2 ≠ 0 then (w.1 + 1 + parentDir.length, w.2 - 1) else w
  | nl t, p => t.getPathLength g p

/-- `isFolder`, FilePath.h:84, 113, 159, 205, 269. -/
def Chain.isFolder : Chain → Bool
  | base _ => false
  | str _ _ => false
  | par _ => true
  | nl _ => true

/-- What the constructor from a chain gives: a position without a value was read,
the buffer was too short (`throwWriteIteratorNoSpace`), or the path. -/
inductive Out where
  | ub
  | noSpace
  | ok (f : FP)
deriving DecidableEq

/-- The text written by `loadPath`, FilePath.h:299-300. -/
def Chain.text (g : Cfg) (c : Chain) (p : Nat) : Option Text :=
  (c.writePath g p).map fun w => if c.isFolder then w.1 ++ [g.dirSep] else w.1

/-- `loadPath`, FilePath.h:291-301: the length is computed first, the number of
parents it leaves is used for writing.  A block that does not fit throws; as
blocks are only added this is the same as the whole being too long. -/
def Chain.build (g : Cfg) (c : Chain) : Out :=
  match c.getPathLength g 0 with
  | none => .ub
  | some (n, p) =>
    match c.text g p with
    | none => .ub
    | some t => if t.length > n + (if c.isFolder then 1 else 0) then .noSpace else .ok ⟨t, some none⟩

end LS.FilePath
