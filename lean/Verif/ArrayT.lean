import Verif.Deque
/-!
# Model of `base/containers/arrayt.h`, `arrayExpr.h`, `flatArray.h` (`ArrayT`)

Arrays and array expressions over items which are numbers. The class of an expression decides which
member functions run: sections of flat arrays are flat (`ArrMid<FlatArray>` is `FlatArrMid`,
flatArray.h:260-326), other sections are `ArrMid` (arrayExpr.h:119-162). A flat array is a list; an
access outside of it is undefined behaviour. `natural` has 64 bits; sums and differences wrap.
Not modelled: `ArrTrn`, `ArrCast`, `ArrayTRef`, the merging of sections of sections (arrayExpr.h:164-183), writing through an expression; references to
expressions which are no longer alive.
-/

namespace LS.ArrayT

/-- Sum of the type `natural`. -/
def wadd (a b : Nat) : Nat := (a + b) % 2 ^ 64

/-- Difference of the type `natural`. -/
def wsub (a b : Nat) : Nat := if b ≤ a then a - b else 2 ^ 64 - (b - a)

/-- `naturalNull`. -/
def null : Nat := 2 ^ 64 - 1

inductive Arr where
  /-- a flat array -/
  | flat (l : List Nat)
  /-- `FlatArrMid` if the array is flat, otherwise `ArrMid` -/
  | mid (a : Arr) (start len : Nat)
  | rev (a : Arr)
  | sum (a b : Arr)
  | rep (a : Arr) (n : Nat)
deriving Repr

/-- Is the class derived from `FlatArray`? -/
def Arr.isFlat : Arr → Bool
  | .flat _ => true
  | .mid a _ _ => a.isFlat
  | _ => false

/-- arrayExpr.h:72, 132, 196, 243; flatArray.h:275: `length`. -/
def Arr.length : Arr → Nat
  | .flat l => l.length
  | .mid _ _ len => len
  | .rev a => a.length
  | .sum a b => wadd a.length b.length
  | .rep a n => (a.length * n) % 2 ^ 64

/-- arrayExpr.h:73-77, 133-135, 197-204, 244-246; flatArray.h:81, 277-280: `at`. -/
def Arr.at : Arr → Nat → Except Err Nat
  | .flat l, i => match l[i]? with
    | some v => .ok v
    | none => .error .ub
  | .mid a start _, i => a.at (wadd i start)
  | .rev a, i => a.at (wsub (wsub a.length i) 1)
  | .sum a b, i => if i ≥ a.length then b.at (i - a.length) else a.at i
  | .rep a _, i => if a.length = 0 then .error .ub else a.at (i % a.length)

/-- arrayt.h:745-747 `ArrayTBase::empty`, arrayExpr.h:112-114, 155-157. -/
def Arr.empty : Arr → Bool
  | .flat l => l.length == 0
  | .mid a _ len => if a.isFlat then len == 0 else decide (len > 0)
  | .rev a => a.length == 0
  | .sum a b => a.empty && b.empty
  | .rep a n => Arr.length (.rep a n) == 0

/-- A functor of `forEach`: it keeps its state in variables which it refers to, `true` stops. -/
abbrev Fn (σ : Type) := σ → Nat → σ × Bool

/-- The loop of `forEach` in arrayt.h:695-699 and arrayExpr.h:220-225; `get i` is the item number `i`. -/
def loop {σ : Type} (get : Nat → Except Err Nat) (f : Fn σ) : (count i : Nat) → σ → Except Err (σ × Bool)
  | 0, _, s => .ok (s, false)
  | n + 1, i, s =>
    match get i with
    | .error e => .error e
    | .ok x => match f s x with
      | (s', true) => .ok (s', true)
      | (s', false) => loop get f n (i + 1) s'

/-- arrayExpr.h:259-267: the loop of `ArrRep::forEach`; `each k n` is `a.forEach(functor,k,n)`. -/
def repLoop {σ : Type} (each : Nat → Nat → σ → Except Err (σ × Bool)) (l : Nat) :
    (fuel k count : Nat) → σ → Except Err (σ × Bool)
  | 0, k, count, s => each k count s
  | fuel + 1, k, count, s =>
    if wadd k count > l then
      match each k (wsub l k) s with
      | .error e => .error e
      | .ok (s', true) => .ok (s', true)
      | .ok (s', false) => repLoop each l fuel 0 (wsub count (wsub l k)) s'
    else each k count s

/-- arrayt.h:695-699 (flat arrays), arrayExpr.h:98-106, 151-153, 220-226, 259-267: `forEach(functor,from,count)`. -/
def Arr.forEach {σ : Type} (f : Fn σ) : Arr → (start count : Nat) → σ → Except Err (σ × Bool)
  | .flat l, start, count, s => loop (fun i => Arr.at (.flat l) (wadd i start)) f count 0 s
  | .mid a st len, start, count, s =>
    if a.isFlat then loop (fun i => Arr.at (.mid a st len) (wadd i start)) f count 0 s
    else a.forEach f (wadd start st) count s
  | .rev a, start, count, s => loop (fun i => a.at (wsub (wsub a.length (wadd i start)) 1)) f count 0 s
  | .sum a b, start, count, s =>
    if start ≥ a.length then b.forEach f (start - a.length) count s
    else if wadd start count ≤ a.length then a.forEach f start count s
    else match a.forEach f start (a.length - start) s with
      | .error e => .error e
      | .ok (s', true) => .ok (s', true)
      | .ok (s', false) => b.forEach f 0 (wsub count a.length) s'
  | .rep a _, start, count, s =>
    if a.length = 0 then .error .ub
    else repLoop (fun k n s => a.forEach f k n s) a.length count (start % a.length) count s

/-! ## Sections, arrayt.h:261-314 -/

/-- arrayt.h:261-272. -/
def Arr.midOf (a : Arr) (pos count : Nat) : Arr :=
  if pos ≥ a.length then .mid a 0 0
  else if wadd pos count > a.length then .mid a pos (a.length - pos)
  else .mid a pos count

/-- arrayt.h:273-280. -/
def Arr.head (a : Arr) (count : Nat) : Arr := .mid a 0 (if count > a.length then a.length else count)

/-- arrayt.h:281-288. -/
def Arr.offset (a : Arr) (pos : Nat) : Arr :=
  let p := if pos > a.length then a.length else pos
  .mid a p (a.length - p)

/-- arrayt.h:289-296. -/
def Arr.tail (a : Arr) (pos : Nat) : Arr :=
  let p := if pos > a.length then a.length else pos
  .mid a (a.length - p) p

/-- arrayt.h:297-304. -/
def Arr.roffset (a : Arr) (pos : Nat) : Arr :=
  let p := if pos > a.length then a.length else pos
  .mid a 0 (a.length - p)

/-- arrayt.h:305-314. -/
def Arr.crop (a : Arr) (left right : Nat) : Arr :=
  if wadd left right ≥ a.length then .mid a 0 0
  else .mid a left (wsub (wsub a.length right) left)

/-! ## Comparison -/

inductive Cmp where
  | less | equal | greater | notEqual
deriving DecidableEq, Repr

/-- arrayt.h:706-711 `compareItems`. -/
def cmpItems (a b : Nat) : Cmp := if a = b then .equal else if a < b then .less else if a > b then .greater else .notEqual

/-- base/compare.h:16-25. -/
def Cmp.swap : Cmp → Cmp
  | .less => .greater
  | .equal => .equal
  | .greater => .less
  | .notEqual => .notEqual

/-- arrayt.h:713-727 `CmpFunctor` over the items of `a`: the state is the index and the result. -/
def cmpLoop (a b : Arr) : (count i : Nat) → Cmp → Except Err Cmp
  | 0, _, c => .ok c
  | n + 1, i, _ =>
    match a.at i, b.at i with
    | .ok x, .ok y => if cmpItems x y ≠ .equal then .ok (cmpItems x y) else cmpLoop a b n (i + 1) .equal
    | .error e, _ => .error e
    | _, .error e => .error e

/-- arrayt.h:734-738, the part for `l1 ≤ l2`. -/
def cmpLe (a b : Arr) : Except Err Cmp :=
  if a.length = 0 then .ok (if b.length = 0 then .equal else .less)
  else match cmpLoop a b a.length 0 .equal with
    | .error e => .error e
    | .ok c => .ok (if c = .equal ∧ a.length < b.length then .less else c)

/-- arrayt.h:729-739 `compare`. -/
def compare (a b : Arr) : Except Err Cmp :=
  if a.length > b.length then match cmpLe b a with
    | .error e => .error e
    | .ok c => .ok c.swap
  else cmpLe a b

/-! ## Searching -/

/-- arrayt.h:437-448 `FindItemFunctor`. -/
def findFn (x : Nat) : Fn Nat := fun pos y => if cmpItems y x = .equal then (pos, true) else (pos + 1, false)

/-- The result of a search. -/
def found : Except Err (Nat × Bool) → Except Err Nat
  | .error e => .error e
  | .ok (pos, true) => .ok pos
  | .ok (_, false) => .ok null

/-- arrayt.h:495-500 `find(item)`. -/
def Arr.find (a : Arr) (x : Nat) : Except Err Nat :=
  if a.empty then .ok null else found (a.forEach (findFn x) 0 a.length 0)

/-- arrayt.h:503, 523: the result of a search in a section. -/
def shift (pos : Nat) : Except Err Nat → Except Err Nat
  | .error e => .error e
  | .ok r => .ok (if r = null then r else wadd r pos)

/-- arrayt.h:501-504 `find(item,pos)`. -/
def Arr.findFrom (a : Arr) (x pos : Nat) : Except Err Nat := shift pos ((a.offset pos).find x)

/-- arrayt.h:511-517: the loop of `find(array)`, `o` is the first item of `other`. -/
def findSeqLoop (a other : Arr) (o : Nat) : (fuel pos : Nat) → Except Err Nat
  | 0, _ => .ok null
  | fuel + 1, pos =>
    if pos = null then .ok null
    else match compare (a.midOf pos other.length) other with
      | .error e => .error e
      | .ok .equal => .ok pos
      | .ok _ => match a.findFrom o (wadd pos 1) with
        | .error e => .error e
        | .ok p => findSeqLoop a other o fuel p

/-- arrayt.h:507-518 `find(array)`; the loop ends in at most `length` rounds. -/
def Arr.findSeq (a other : Arr) : Except Err Nat :=
  if other.length = 0 ∨ other.length > a.length then .ok null
  else match other.at 0 with
    | .error e => .error e
    | .ok o => match a.find o with
      | .error e => .error e
      | .ok p => findSeqLoop a other o (a.length + 1) p

/-- arrayt.h:521-524 `find(array,pos)`. -/
def Arr.findSeqFrom (a other : Arr) (pos : Nat) : Except Err Nat := shift pos ((a.offset pos).findSeq other)

/-- arrayt.h:546, 559: an index in the reversed array. -/
def unrev (len : Nat) : Except Err Nat → Except Err Nat
  | .error e => .error e
  | .ok r => .ok (if r = null then null else wsub (wsub len r) 1)

/-- arrayt.h:541-546 `findLast(item)`. -/
def Arr.findLast (a : Arr) (x : Nat) : Except Err Nat :=
  if a.empty then .ok null
  else unrev a.length (found (Arr.forEach (findFn x) (.rev (a.offset 0)) 0 (a.offset 0).length 0))

/-- arrayt.h:556-560 `findLast(array)`, 570-574 `findLastArr`. -/
def Arr.findLastSeq (a other : Arr) : Except Err Nat :=
  unrev a.length (Arr.findSeq (.rev (a.offset 0)) (.rev (other.offset 0)))

/-- arrayt.h:451-462 `FindOneOfFunctor`. -/
def oneOfFn (items : Arr) : Fn (Except Err Nat) := fun pos y =>
  match pos with
  | .error e => (.error e, true)
  | .ok p => match items.find y with
    | .error e => (.error e, true)
    | .ok r => if r ≠ null then (.ok p, true) else (.ok (p + 1), false)

/-- arrayt.h:528-533 `findOneOf`. -/
def Arr.findOneOf (a items : Arr) : Except Err Nat :=
  if a.empty then .ok null
  else match a.forEach (oneOfFn items) 0 a.length (.ok 0) with
    | .error e => .error e
    | .ok (p, true) => p
    | .ok (_, false) => .ok null

/-! ## `trim`, arrayt.h:315-362 -/

/-- arrayt.h:320: `m x` tells whether `x` is trimmed. -/
def trimL (a : Arr) (m : Nat → Except Err Bool) : (fuel beg stop : Nat) → Except Err Nat
  | 0, beg, _ => .ok beg
  | fuel + 1, beg, stop =>
    if beg < stop then match a.at beg with
      | .error e => .error e
      | .ok x => match m x with
        | .error e => .error e
        | .ok true => trimL a m fuel (beg + 1) stop
        | .ok false => .ok beg
    else .ok beg

/-- arrayt.h:323. -/
def trimR (a : Arr) (m : Nat → Except Err Bool) : (fuel beg stop : Nat) → Except Err Nat
  | 0, _, stop => .ok stop
  | fuel + 1, beg, stop =>
    if beg < stop then match a.at (stop - 1) with
      | .error e => .error e
      | .ok x => match m x with
        | .error e => .error e
        | .ok true => trimR a m fuel beg (stop - 1)
        | .ok false => .ok stop
    else .ok stop

/-- arrayt.h:316-326, 340-350: `left`, `right` tell on which sides (`dir`). -/
def Arr.trimBy (a : Arr) (m : Nat → Except Err Bool) (left right : Bool) : Except Err Arr :=
  match if left then trimL a m a.length 0 a.length else .ok 0 with
  | .error e => .error e
  | .ok beg => match if right then trimR a m a.length beg a.length else .ok a.length with
    | .error e => .error e
    | .ok stop => .ok (a.midOf beg (stop - beg))

/-- arrayt.h:316-337 `trim(array)`. -/
def Arr.trim (a items : Arr) (left right : Bool) : Except Err Arr :=
  a.trimBy (fun x => match items.find x with | .error e => .error e | .ok r => .ok (decide (r ≠ null))) left right

/-! ## `split`, arrayt.h:609-670 -/

/-- arrayt.h:622-632 `peek`. -/
def splitPeek (a : Arr) (sep pos : Nat) : Except Err Arr :=
  if pos ≤ a.length then match (a.offset pos).find sep with
    | .error e => .error e
    | .ok p => .ok (if p = null then .mid a pos (a.length - pos) else .mid a pos p)
  else .error .thrown

/-- All the parts: `getNext` (arrayt.h:634-638) while `hasItems` (618-620). -/
def splitFrom (a : Arr) (sep : Nat) : (fuel pos : Nat) → Except Err (List Arr)
  | 0, _ => .ok []
  | fuel + 1, pos =>
    if pos ≤ a.length then match splitPeek a sep pos with
      | .error e => .error e
      | .ok m => match splitFrom a sep fuel (pos + m.length + 1) with
        | .error e => .error e
        | .ok ms => .ok (m :: ms)
    else .ok []

/-- arrayt.h:668-670 `split`, iterated to the end. -/
def Arr.split (a : Arr) (sep : Nat) : Except Err (List Arr) := splitFrom a sep (a.length + 1) 0

/-! ## `render`, arrayt.h:590-603 -/

/-- arrayt.h:465-477 `RenderFunctor` into an iterator with space for `space` items: (written, count). -/
def renderFn (space : Nat) : Fn (List Nat × Nat) := fun s x =>
  if s.1.length ≥ space then (s, true) else ((s.1 ++ [x], s.2 + 1), false)

/-- arrayt.h:591-596 `render(iterator)`: the items written and the result. -/
def Arr.render (a : Arr) (space : Nat) : Except Err (List Nat × Nat) :=
  match a.forEach (renderFn space) 0 a.length ([], 0) with
  | .error e => .error e
  | .ok (s, _) => .ok s

/-- arrayt.h:480-492 `RenderToArrFunctor`: the target and `cnt`. -/
def renderArrFn : Fn (List Nat × Nat) := fun s x =>
  if s.2 + 1 ≥ s.1.length then (s, false) else ((s.1.set (s.2 + 1) x, s.2 + 1), true)

/-- arrayt.h:599-603 `render(array)`: the target afterwards and the result. -/
def Arr.renderArr (a : Arr) (target : List Nat) : Except Err (List Nat × Nat) :=
  match a.forEach renderArrFn 0 a.length (target, 0) with
  | .error e => .error e
  | .ok (s, _) => .ok s

end LS.ArrayT
