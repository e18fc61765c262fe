/-
Model of the HTTP client classes (base/streams/httpc.{h,tcc}): `HttpRequest` (head and chunked body)
and `HttpResponse` (head, the three ways of reading the body).

Characters are numbers below 256; the function `output` appends to a list, the function `input` takes
from a list and gives -1 at its end.  Simplified: strings of the pool are lists (the pool itself is
not modelled); the map of headers is a list in the order of insertion, in the code it is ordered by
name; `setUrl` is not modelled.
-/
namespace LS.Http

/-- 2^64-1, `naturalNull`. -/
def null : Nat := 18446744073709551615

/-- Outcome of a call; the state after a thrown exception goes on. -/
inductive R (σ β : Type) where
  | ok (b : β) (s : σ)
  /-- `IteratorNoMoreItems` -/
  | thrown (s : σ)
  /-- does not return -/
  | hang
  /-- memory outside of the string -/
  | ub
deriving DecidableEq, Repr

/-! ## Sender -/

/-- `ToStringUnsigned::extract` (base/text/toString.h:69-74) with `up = false`, the number bounds the depth. -/
def digits (base : Nat) : Nat → Nat → List Nat
  | 0, _ => []
  | f + 1, v =>
    let x := v % base
    let d := if x > 9 then 97 + x - 10 else 48 + x
    if v ≥ base then digits base f (v / base) ++ [d] else [d]

/-- `ToString<natural>` (toString.h:64-68); 64 digits suffice for 64 bits. -/
def toStr (base v : Nat) : List Nat := if v = 0 then [48] else digits base 64 v

def crlf : List Nat := [13, 10]

abbrev Str := List Nat

/-- Members of `HttpRequest` (httpc.h:62-71). -/
structure Req where
  out : Str := []
  method : Str := []
  path : Str := []
  hdrs : List (Str × Str) := []
  headersSent : Bool := false
  buf : Str := []
  max : Nat := 65536
deriving DecidableEq, Repr

/-- `Map::replace`. -/
def replace (k v : Str) : List (Str × Str) → List (Str × Str)
  | [] => [(k, v)]
  | (k', v') :: m => if k' = k then (k, v) :: m else (k', v') :: replace k v m

/-- `addHeader` (httpc.tcc:106-109). -/
def Req.addHeader (s : Req) (k v : Str) : Req := { s with hdrs := replace k v s.hdrs }

/-- "Transfer-Encoding" -/
def teName : Str := [84, 114, 97, 110, 115, 102, 101, 114, 45, 69, 110, 99, 111, 100, 105, 110, 103]
/-- "chunked" -/
def chunkedName : Str := [99, 104, 117, 110, 107, 101, 100]
/-- "Content-Length" -/
def clName : Str := [67, 111, 110, 116, 101, 110, 116, 45, 76, 101, 110, 103, 116, 104]

/-- `sendHeaders` (httpc.tcc:136-157): the name to erase has a tabulator at its end. -/
def Req.sendHeaders (s : Req) (body : Bool) : Req :=
  let s := if body then
      let s := s.addHeader teName chunkedName
      { s with hdrs := s.hdrs.filter fun kv => kv.1 ≠ clName ++ [9] }
    else s
  { s with out := s.out ++ s.method ++ [32] ++ s.path ++ [32, 72, 84, 84, 80, 47, 49, 46, 49] ++ crlf ++ (s.hdrs.flatMap fun kv => kv.1 ++ [58, 32] ++ kv.2 ++ crlf) ++ crlf, headersSent := true }

/-- `beginBody` (httpc.tcc:130-133). -/
def Req.beginBody (s : Req) : Req := s.sendHeaders true

/-- `sendChunk` (httpc.tcc:207-213). -/
def Req.sendChunk (s : Req) : Req := { s with out := s.out ++ toStr 16 s.buf.length ++ crlf ++ s.buf ++ crlf }

/-- `flush` (httpc.tcc:179-186): `sendHeaders()` has the default `body = false`. -/
def Req.flush (s : Req) : Req :=
  let s := if s.headersSent then s else s.sendHeaders false
  if s.buf ≠ [] then { s.sendChunk with buf := [] } else s

/-- `write` (httpc.tcc:166-170). -/
def Req.write (s : Req) (b : Nat) : Req :=
  let s := { s with buf := s.buf ++ [b] }
  if s.buf.length = s.max then s.flush else s

/-- `setMaxChunkSize` (httpc.tcc:189-192). -/
def Req.setMax (s : Req) (n : Nat) : Req := { s with max := n }

/-- `reset` (httpc.tcc:33-44): the buffer is not cleared. -/
def Req.reset (s : Req) : Req :=
  let s := if s.headersSent then s.flush.sendChunk else s
  { s with headersSent := false, hdrs := [], method := [], path := [] }

/-- `send(data)` (httpc.tcc:112-119). -/
def Req.send (s : Req) (data : Str) : Req :=
  let s := (s.addHeader clName (toStr 10 data.length)).sendHeaders false
  { s with out := s.out ++ data, headersSent := false }.reset

/-! ## Receiver -/

inductive Mode where
  | direct
  | limited
  | chunked
deriving DecidableEq, Repr

/-- Members of `HttpResponse` (httpc.h:165-186). -/
structure Resp where
  inp : Str
  eof : Bool := true
  mode : Mode := .direct
  readLen : Nat := 0
  c : Nat := 0
  cloaded : Bool := false
  code : Nat := 0
  msg : Str := []
  hdrs : List (Str × Str) := []
  opened : Bool := false
  parsed : Bool := false
deriving DecidableEq, Repr

/-- `fetchByte` (httpc.tcc:231-240). -/
def Resp.fetch (s : Resp) : Bool × Resp :=
  match s.inp with
  | [] => (false, { s with eof := true })
  | x :: r => (true, { s with inp := r, c := x, cloaded := true })

/-- Loop of `readLine` (httpc.tcc:474-489): line without its end, rest; `none` at the end of the input. -/
def lineLoop : Nat → Str → Str → Option (Str × Str)
  | _, _, [] => none
  | prev, acc, z :: r =>
    let acc := acc ++ [z]
    if prev = 13 ∧ z = 10 then some (acc.take (acc.length - 2), r) else lineLoop z acc r

/-- `readLine` (httpc.tcc:470-491). -/
def Resp.readLine (s : Resp) : Str × Resp :=
  if s.eof then ([], s)
  else
    match lineLoop 0 [] s.inp with
    | some (l, r) => (l, { s with inp := r })
    | none => ([], { s with inp := [], eof := true })

/-- `while (ln.empty()) ln = readLine()` (httpc.tcc:251-255, 378-381); the number bounds the rounds. -/
def fullLine : Nat → Resp → R Resp Str
  | 0, _ => .hang
  | n + 1, s =>
    let (l, s) := s.readLine
    if l = [] then fullLine n s else .ok l s

/-- `parseNumber` (httpc.tcc:494-535), first loop; `none` is `return 0`. -/
def parseFirst (base : Nat) : Str → Option (Nat × Str)
  | [] => some (0, [])
  | c :: cs =>
    if c ≥ 48 ∧ c ≤ 57 then some (c - 48, cs)
    else if c ≥ 65 ∧ c < 65 + base - 10 then some (c - 65 + 10, cs)
    else if c ≥ 97 ∧ c < 97 + base - 10 then some (c - 97 + 10, cs)
    else if c ≠ 32 ∧ c ≠ 9 then none
    else parseFirst base cs

/-- The second loop: a small letter ends it. -/
def parseRest (base : Nat) : Nat → Str → Nat
  | n, [] => n
  | n, c :: cs =>
    if c ≥ 48 ∧ c ≤ 57 then parseRest base ((n * base + (c - 48)) % 18446744073709551616) cs
    else if c ≥ 65 ∧ c < 65 + base - 10 then parseRest base ((n * base + (c - 65 + 10)) % 18446744073709551616) cs
    else if c ≥ 97 ∧ c < 97 + base - 10 then (n * base + (c - 97 + 10)) % 18446744073709551616
    else n

def parseNumber (l : Str) (base : Nat) : Nat :=
  match parseFirst base l with
  | none => 0
  | some (n, cs) => parseRest base n cs

/-- `openChunk` (httpc.tcc:375-393). -/
def Resp.openChunk (s : Resp) : R Resp Bool :=
  match fullLine (s.inp.length + 2) s with
  | .ok l s =>
    let n := parseNumber l 16
    if n = 0 then
      let (_, s) := { s with readLen := 0 }.readLine
      .ok false { s with eof := true }
    else .ok true { s with readLen := n, cloaded := false }
  | .thrown s => .thrown s
  | .hang => .hang
  | .ub => .ub

/-- `hasItems` (httpc.tcc:357-371). -/
def Resp.hasItems (s : Resp) : R Resp Bool :=
  match s.mode with
  | .direct => if s.cloaded then .ok true s else .ok s.fetch.1 s.fetch.2
  | .limited => .ok (s.cloaded || decide (s.readLen > 0)) s
  | .chunked => if s.cloaded || decide (s.readLen > 0) then .ok true s else s.openChunk

/-- `readLen--` -/
def dec (n : Nat) : Nat := if n = 0 then null else n - 1

/-- `getNext` (httpc.tcc:396-426). -/
def Resp.getNext (s : Resp) : R Resp Nat :=
  match s.mode with
  | .direct =>
    if s.cloaded then .ok s.c { s with cloaded := false }
    else if s.fetch.1 then .ok s.fetch.2.c { s.fetch.2 with cloaded := false } else .thrown s.fetch.2
  | .limited =>
    if s.cloaded then .ok s.c { s with readLen := dec s.readLen, cloaded := false }
    else if s.fetch.1 then .ok s.fetch.2.c { s.fetch.2 with readLen := dec s.readLen, cloaded := false } else .thrown s.fetch.2
  | .chunked =>
    if s.cloaded then .ok s.c { s with readLen := dec s.readLen, cloaded := false }
    else
      match (if s.readLen = 0 then s.openChunk else .ok true s) with
      | .ok true s => if s.fetch.1 then .ok s.fetch.2.c { s.fetch.2 with readLen := dec s.readLen, cloaded := false } else .thrown s.fetch.2
      | .ok false s => .thrown s
      | .thrown s => .thrown s
      | .hang => .hang
      | .ub => .ub

/-- `peek` (httpc.tcc:429-455). -/
def Resp.peek (s : Resp) : R Resp Nat :=
  match s.mode with
  | .direct => if s.cloaded then .ok s.c s else if s.fetch.1 then .ok s.fetch.2.c s.fetch.2 else .thrown s.fetch.2
  | .limited => if s.cloaded then .ok s.c s else if s.fetch.1 then .ok s.fetch.2.c s.fetch.2 else .thrown s.fetch.2
  | .chunked =>
    if s.cloaded then .ok s.c s
    else
      match (if s.readLen = 0 then s.openChunk else .ok true s) with
      | .ok _ s' => if s.readLen = 0 ∧ s'.eof then .thrown s'
        else if s'.fetch.1 then .ok s'.fetch.2.c s'.fetch.2 else .thrown s'.fetch.2
      | .thrown s => .thrown s
      | .hang => .hang
      | .ub => .ub

/-- `while (hasItems()) skip()` (httpc.tcc:306); the number bounds the rounds. -/
def drain : Nat → Resp → R Resp Unit
  | 0, _ => .hang
  | n + 1, s =>
    match s.hasItems with
    | .ok true s =>
      match s.getNext with
      | .ok _ s => drain n s
      | .thrown s => .thrown s
      | .hang => .hang
      | .ub => .ub
    | .ok false s => .ok () s
    | .thrown s => .thrown s
    | .hang => .hang
    | .ub => .ub

/-- `reset` (httpc.tcc:301-325). -/
def Resp.reset (s : Resp) : R Resp Bool :=
  let clear (s : Resp) : Resp := { s with code := 0, msg := [], hdrs := [], opened := false, parsed := false, eof := false }
  if s.opened then
    if s.parsed then
      if s.readLen ≠ null then
        match drain (s.inp.length + 2) s with
        | .ok _ s => .ok true (clear s)
        | .thrown s => .thrown s
        | .hang => .hang
        | .ub => .ub
      else .ok false s
    else .ok false s
  else .ok true (clear s)

/-- `trim` (httpc.tcc:538-543). -/
def blank (c : Nat) : Bool := c == 32 || c == 9
def trim (l : Str) : Str := ((l.dropWhile blank).reverse.dropWhile blank).reverse

/-- The loop over the lines of the head (httpc.tcc:264-274); `false` for a line without a colon.  The number bounds the rounds. -/
def hdrLoop : Nat → Str → Resp → R Resp Bool
  | 0, _, _ => .hang
  | n + 1, l, s =>
    if l = [] then .ok true s
    else if 58 ∈ l then
      let k := trim (l.takeWhile (· ≠ 58))
      let v := trim ((l.dropWhile (· ≠ 58)).drop 1)
      let s := if s.hdrs.any (fun kv => kv.1 = k) then s else { s with hdrs := s.hdrs ++ [(k, v)] }
      let (l, s) := s.readLine
      hdrLoop n l s
    else .ok false s

/-- `getHeader` (httpc.tcc:335-342). -/
def Resp.getHeader (s : Resp) (k : Str) : Str :=
  match s.hdrs.find? (fun kv => kv.1 = k) with
  | some kv => kv.2
  | none => []

/-- `open` (httpc.tcc:244-297).  `split` (base/containers/arrayt.h:609-643): the second field is missing → exception; `getRest` behind the end has the length -1. -/
def Resp.openResp (s : Resp) : R Resp Nat :=
  if s.opened then .ok s.code s
  else
    let s := { s with opened := true, parsed := false, eof := false }
    match fullLine (s.inp.length + 2) s with
    | .ok l s =>
      let ver := l.takeWhile (· ≠ 32)
      if ver.length + 1 ≤ l.length then
        let l2 := l.drop (ver.length + 1)
        let code := l2.takeWhile (· ≠ 32)
        if code.length + 1 ≤ l2.length then
          let s := { s with msg := l2.drop (code.length + 1), code := parseNumber code 10 }
          let (l, s) := s.readLine
          match hdrLoop (s.inp.length + 2) l s with
          | .ok true s =>
            if s.getHeader teName = chunkedName then .ok s.code { s with readLen := 0, mode := .chunked, cloaded := false, parsed := true }
            else
              let cl := s.getHeader clName
              if cl ≠ [] then .ok s.code { s with readLen := parseNumber cl 10, mode := .limited, cloaded := false, parsed := true }
              else .ok s.code { s with readLen := null, mode := .direct, cloaded := false, parsed := true }
          | .ok false s => .ok null s
          | .thrown s => .thrown s
          | .hang => .hang
          | .ub => .ub
        else .ub
      else .thrown s
    | .thrown s => .thrown s
    | .hang => .hang
    | .ub => .ub

end LS.Http
