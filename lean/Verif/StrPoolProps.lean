/-
C122: strings of a pool keep their text.

The specification keeps, for every string handed out and not given up, the text it was made from and the size of the pool then (what `mark()` gave after the call).  `clear` gives all strings up,
`release(m)` those made after `m` was taken.
-/
import Verif.StrPool
namespace LS.StrPool

/-- A string in the hands of the owner. -/
structure Held where
  ref : Ref
  text : Str
  size : Nat
deriving DecidableEq, Repr

/-- The text an operation promises; for `addInside` the text at the position. -/
def promise (pool : Str) : Op → Option Str
  | .add t _ => some t
  | .addInside pos len => some ((pool.drop pos).take len)
  | .addIter t _ => some t
  | .addIterC t _ => some t
  | .write xs _ => some (xs.map (·.1))
  | _ => none

/-- Strings still held after an operation, the new one left out. -/
def kept (h : List Held) : Op → List Held
  | .clear => []
  | .release m => h.filter (fun x => decide (x.size ≤ m))
  | _ => h

/-- The string made by an operation. -/
def made (o : Option Ref) (t : Option Str) (n : Nat) : List Held :=
  match o, t with
  | some r, some t => [⟨r, t, n⟩]
  | _, _ => []

def stepH (z : Bool) (p : S × List Held) (op : Op) : S × List Held :=
  let q := p.1.apply z op
  (q.1, made q.2 (promise p.1.pool op) q.1.pool.length ++ kept p.2 op)

def runH (z : Bool) (p : S × List Held) (ops : List Op) : S × List Held := ops.foldl (stepH z) p

/-- A text inside of the pool is inside of it. -/
def Legal (s : S) : Op → Prop
  | .addInside pos len => pos + len ≤ s.pool.length
  | _ => True

/-- Legal calls all along. -/
def LegalRun (z : Bool) (p : S × List Held) : List Op → Prop
  | [] => True
  | op :: ops => Legal p.1 op ∧ LegalRun z (stepH z p op) ops

/-- Every string held reads as its text. -/
def AllRead (p : S × List Held) : Prop := ∀ h ∈ p.2, p.1.read h.ref = some h.text

/-- Full claim. -/
def Claim122 (z : Bool) : Prop := ∀ ops : List Op, LegalRun z ({}, []) ops → AllRead (runH z ({}, []) ops)

/-- Calls that keep the promise: no `add(IIterator &)` when strings end with a zero, no unfinished writer. -/
def Calm (z : Bool) : Op → Prop
  | .addIter _ _ => z = false
  | .begin _ => False
  | _ => True

/-- Pool within its documented size all along. -/
def Fits (z : Bool) (p : S × List Held) : List Op → Prop
  | [] => p.1.pool.length < 4294967296
  | op :: ops => p.1.pool.length < 4294967296 ∧ Fits z (stepH z p op) ops

/-- Invariant: the address is current once there is anything, every held string lies below its size and has its text. -/
structure Inv (p : S × List Held) : Prop where
  cur : p.1.pool ≠ [] → p.1.ref = some p.1.blk
  held : ∀ h ∈ p.2, h.text.length = h.ref.len ∧ (h.ref.len ≠ 0 → h.ref.off + h.ref.len ≤ h.size ∧ (p.1.pool.drop h.ref.off).take h.ref.len = h.text)
  size : ∀ h ∈ p.2, h.size ≤ p.1.pool.length

theorem Inv.read {p : S × List Held} (i : Inv p) : AllRead p := by
  intro h hh
  obtain ⟨hl, ht⟩ := i.held h hh
  unfold S.read
  by_cases h0 : h.ref.len = 0
  · rw [if_pos h0]
    rw [h0] at hl
    rw [List.length_eq_zero_iff.mp hl]
  · obtain ⟨hb, ht⟩ := ht h0
    have hs := i.size h hh
    have hne : p.1.pool ≠ [] := by
      intro he
      rw [he, List.length_nil] at hs
      omega
    rw [if_neg h0, if_pos ⟨i.cur hne, by omega⟩, ht]

theorem take_drop_append (a b : Str) (o l : Nat) (h : o + l ≤ a.length) : ((a ++ b).drop o).take l = (a.drop o).take l := by
  rw [List.drop_append_of_le_length (by omega), List.take_append_of_le_length (by rw [List.length_drop]; omega)]

theorem writes_pool (xs : List (Nat × Bool)) : ∀ s : S, (s.writes xs).pool = s.pool ++ xs.map (·.1) := by
  induction xs with
  | nil => intro s; exact (List.append_nil _).symm
  | cons x xs ih =>
    intro s
    refine (ih _).trans ?_
    show (s.pool ++ [x.1]) ++ _ = _
    rw [List.append_assoc]; rfl

/-- Strings held stay readable when the pool grows and the address is set again. -/
theorem Inv.mono {s s' : S} {h : List Held} (i : Inv (s, h)) (x : Str) (hp : s'.pool = s.pool ++ x) (hr : s'.ref = some s'.blk) : Inv (s', h) := by
  refine ⟨fun _ => hr, ?_, ?_⟩
  · intro k hk
    obtain ⟨hl, ht⟩ := i.held k hk
    refine ⟨hl, fun h0 => ?_⟩
    obtain ⟨hb, ht⟩ := ht h0
    have hs := i.size k hk
    refine ⟨hb, ?_⟩
    show (s'.pool.drop _).take _ = _
    rw [hp, take_drop_append _ _ _ _ (Nat.le_trans hb hs)]
    exact ht
  · intro k hk
    show _ ≤ s'.pool.length
    rw [hp, List.length_append]
    exact Nat.le_trans (i.size k hk) (Nat.le_add_right _ _)

/-- A new string with the right place. -/
theorem Inv.cons {s : S} {h : List Held} (i : Inv (s, h)) (r : Ref) (t : Str) (ht : t.length = r.len) (hb : r.len ≠ 0 → r.off + r.len ≤ s.pool.length ∧ (s.pool.drop r.off).take r.len = t) : Inv (s, [⟨r, t, s.pool.length⟩] ++ h) := by
  refine ⟨i.cur, ?_, ?_⟩
  · intro k hk
    rcases List.mem_cons.mp hk with rfl | hk
    · exact ⟨ht, hb⟩
    · exact i.held k hk
  · intro k hk
    rcases List.mem_cons.mp hk with rfl | hk
    · exact Nat.le_refl _
    · exact i.size k hk

theorem n32_small {x : Nat} (h : x < 4294967296) : n32 x = x := Nat.mod_eq_of_lt h

/-- A text put at the end, with something behind it. -/
theorem Inv.push {s s' : S} {h : List Held} (i : Inv (s, h)) (t x : Str) (hp : s'.pool = s.pool ++ (t ++ x)) (hr : s'.ref = some s'.blk) (hf : s'.pool.length < 4294967296) :
    Inv (s', [⟨mkRef s.pool.length t.length, t, s'.pool.length⟩] ++ h) := by
  have hlen : s'.pool.length = s.pool.length + (t.length + x.length) := by rw [hp, List.length_append, List.length_append]
  have h1 : n32 s.pool.length = s.pool.length := n32_small (by omega)
  have h2 : n32 t.length = t.length := n32_small (by omega)
  refine (i.mono (t ++ x) hp hr).cons _ _ ?_ ?_
  · show _ = n32 _
    rw [h2]
  · intro _
    show n32 _ + n32 _ ≤ _ ∧ (s'.pool.drop (n32 _)).take (n32 _) = t
    rw [h1, h2]
    refine ⟨by omega, ?_⟩
    rw [hp, List.drop_left, List.take_left]

theorem Inv.step {z : Bool} {p : S × List Held} (i : Inv p) (op : Op) (hl : Legal p.1 op) (hc : Calm z op) (hf0 : p.1.pool.length < 4294967296)
    (hf : (stepH z p op).1.pool.length < 4294967296) : Inv (stepH z p op) := by
  obtain ⟨s, h⟩ := p
  cases op with
  | add t mv =>
    by_cases h0 : t.length = 0
    · have e : stepH z (s, h) (.add t mv) = (s, [⟨mkRef 0 0, t, s.pool.length⟩] ++ h) := by
        show ((s.add z t mv).1, [(⟨(s.add z t mv).2, t, (s.add z t mv).1.pool.length⟩ : Held)] ++ h) = _
        unfold S.add
        rw [if_pos h0]
      rw [e]
      exact i.cons _ _ h0 (fun hn => absurd rfl hn)
    · have e : stepH z (s, h) (.add t mv) = ((s.grow (t ++ zero z) mv).sync, [⟨mkRef s.pool.length t.length, t, (s.grow (t ++ zero z) mv).sync.pool.length⟩] ++ h) := by
        show ((s.add z t mv).1, [(⟨(s.add z t mv).2, t, (s.add z t mv).1.pool.length⟩ : Held)] ++ h) = _
        unfold S.add
        rw [if_neg h0]
      rw [e] at hf ⊢
      exact i.push t (zero z) rfl rfl hf
  | addInside pos len =>
    have hl' : pos + len ≤ s.pool.length := hl
    by_cases h0 : len = 0
    · have e : stepH z (s, h) (.addInside pos len) = (s, [⟨mkRef 0 0, (s.pool.drop pos).take len, s.pool.length⟩] ++ h) := by
        show ((s.addInside pos len).1, [(⟨(s.addInside pos len).2, _, (s.addInside pos len).1.pool.length⟩ : Held)] ++ h) = _
        unfold S.addInside
        rw [if_pos h0]
      rw [e]
      refine i.cons _ _ ?_ (fun hn => absurd rfl hn)
      rw [h0]; rfl
    · have e : stepH z (s, h) (.addInside pos len) = (s, [⟨mkRef pos len, (s.pool.drop pos).take len, s.pool.length⟩] ++ h) := by
        show ((s.addInside pos len).1, [(⟨(s.addInside pos len).2, _, (s.addInside pos len).1.pool.length⟩ : Held)] ++ h) = _
        unfold S.addInside
        rw [if_neg h0]
      rw [e]
      have hf0' : s.pool.length < 4294967296 := hf0
      have h1 : n32 pos = pos := n32_small (by omega)
      have h2 : n32 len = len := n32_small (by omega)
      refine i.cons _ _ ?_ (fun _ => ?_)
      · show _ = n32 len
        rw [h2, List.length_take, List.length_drop]
        omega
      · show n32 pos + n32 len ≤ _ ∧ (s.pool.drop (n32 pos)).take (n32 len) = _
        rw [h1, h2]
        exact ⟨hl', rfl⟩
  | addIter t mv =>
    have hz : z = false := hc
    subst hz
    have e : stepH false (s, h) (.addIter t mv) = ((s.grow (t ++ []) mv).sync, [⟨mkRef s.pool.length t.length, t, (s.grow (t ++ []) mv).sync.pool.length⟩] ++ h) := by
      have : (s.pool ++ (t ++ [])).length - s.pool.length = t.length := by
        rw [List.length_append, List.append_nil]; omega
      show (_, [(⟨mkRef s.pool.length ((s.pool ++ (t ++ [])).length - s.pool.length), t, _⟩ : Held)] ++ h) = _
      rw [this]
      rfl
    rw [e] at hf ⊢
    exact i.push t [] rfl rfl hf
  | addIterC t mv =>
    have e : stepH z (s, h) (.addIterC t mv) = ((s.grow (t ++ zero z) mv).sync, [⟨mkRef s.pool.length t.length, t, (s.grow (t ++ zero z) mv).sync.pool.length⟩] ++ h) := by
      have : (s.pool ++ t).length - s.pool.length = t.length := by
        rw [List.length_append]; omega
      show (_, [(⟨mkRef s.pool.length ((s.pool ++ t).length - s.pool.length), t, _⟩ : Held)] ++ h) = _
      rw [this]
      rfl
    rw [e] at hf ⊢
    exact i.push t (zero z) rfl rfl hf
  | clear => exact ⟨fun _ => rfl, fun k hk => (List.not_mem_nil hk).elim, fun k hk => (List.not_mem_nil hk).elim⟩
  | freeExtra mv => exact i.mono [] rfl rfl
  | release m =>
    have sub : ∀ k ∈ h.filter (fun x => decide (x.size ≤ m)), k ∈ h ∧ k.size ≤ m := by
      intro k hk
      obtain ⟨a, b⟩ := List.mem_filter.mp hk
      exact ⟨a, of_decide_eq_true b⟩
    have e : stepH z (s, h) (.release m) = (s.release m, h.filter (fun x => decide (x.size ≤ m))) := rfl
    rw [e]
    unfold S.release
    by_cases hm : m < s.pool.length
    · rw [if_pos hm]
      refine ⟨fun _ => rfl, ?_, ?_⟩
      · intro k hk
        obtain ⟨hk, hs⟩ := sub k hk
        obtain ⟨hl, ht⟩ := i.held k hk
        refine ⟨hl, fun h0 => ?_⟩
        obtain ⟨hb, ht⟩ := ht h0
        refine ⟨hb, ?_⟩
        show ((s.pool.take m).drop _).take _ = _
        rw [List.drop_take, List.take_take, Nat.min_eq_left (by omega)]
        exact ht
      · intro k hk
        obtain ⟨hk, hs⟩ := sub k hk
        show _ ≤ (s.pool.take m).length
        rw [List.length_take]
        omega
    · rw [if_neg hm]
      exact ⟨i.cur, fun k hk => i.held k (sub k hk).1, fun k hk => i.size k (sub k hk).1⟩
  | write xs mv =>
    have hw := writes_pool xs s
    have hp : (((s.writes xs).grow (zero z) mv).sync).pool = s.pool ++ (xs.map (·.1) ++ zero z) := by
      show (s.writes xs).pool ++ zero z = _
      rw [hw, List.append_assoc]
    have e : stepH z (s, h) (.write xs mv) = (((s.writes xs).grow (zero z) mv).sync, [⟨mkRef s.pool.length (xs.map (·.1)).length, xs.map (·.1), (((s.writes xs).grow (zero z) mv).sync).pool.length⟩] ++ h) := by
      have : (s.writes xs).pool.length - s.pool.length = (xs.map (·.1)).length := by
        rw [hw, List.length_append]; omega
      show (_, [(⟨mkRef s.pool.length ((s.writes xs).pool.length - s.pool.length), _, _⟩ : Held)] ++ h) = _
      rw [this]
      rfl
    rw [e] at hf ⊢
    exact i.push _ (zero z) hp rfl hf
  | begin xs => exact hc.elim

theorem Inv.run {z : Bool} (ops : List Op) : ∀ p : S × List Held, Inv p → LegalRun z p ops → (∀ op ∈ ops, Calm z op) → Fits z p ops → Inv (runH z p ops) := by
  induction ops with
  | nil => intro p i _ _ _; exact i
  | cons op ops ih =>
    intro p i hl hc hf
    have hf2 : (stepH z p op).1.pool.length < 4294967296 := by
      have := hf.2
      cases ops with
      | nil => exact this
      | cons _ _ => exact this.1
    exact ih _ (i.step op hl.1 (hc op List.mem_cons_self) hf.1 hf2) hl.2 (fun o ho => hc o (List.mem_cons_of_mem _ ho)) hf.2

theorem Inv.init : Inv ({}, []) := ⟨fun h => absurd rfl h, fun k hk => (List.not_mem_nil hk).elim, fun k hk => (List.not_mem_nil hk).elim⟩

/-- C122 for pools below four giga characters, without `add(IIterator &)` of zero ended strings and without unfinished writers: every string held reads as the text it was made from, wherever the
block was moved. -/
theorem C122_read_partial (z : Bool) (ops : List Op) (hl : LegalRun z ({}, []) ops) (hc : ∀ op ∈ ops, Calm z op) (hf : Fits z ({}, []) ops) :
    AllRead (runH z ({}, []) ops) := (Inv.init.run ops _ hl hc hf).read

/-- Strings of characters end with a zero behind their text (so that `data()` is a C string): after `add`, `add(const IIterator &)` and a finished writer the item behind the text is zero. -/
theorem C122_zero (s : S) (op : Op) (t : Str) (hp : promise s.pool op = some t) (hc : ∀ pos len, op ≠ .addInside pos len) (hi : ∀ u mv, op ≠ .addIter u mv) (ht : t ≠ []) :
    (s.apply true op).1.pool = s.pool ++ t ++ [0] := by
  cases op with
  | add u mv =>
    have hu : u = t := Option.some.inj hp
    subst hu
    show (s.add true u mv).1.pool = _
    unfold S.add
    rw [if_neg (fun h => ht (List.length_eq_zero_iff.mp h))]
    exact (List.append_assoc _ _ _).symm
  | addInside pos len => exact absurd rfl (hc pos len)
  | addIter u mv => exact absurd rfl (hi u mv)
  | addIterC u mv =>
    have hu : u = t := Option.some.inj hp
    subst hu
    exact (List.append_assoc _ _ _).symm
  | write xs mv =>
    have hu : xs.map (·.1) = t := Option.some.inj hp
    subst hu
    show (s.writes xs).pool ++ [0] = _
    rw [writes_pool]
  | clear => exact absurd hp (by intro h; cases h)
  | freeExtra mv => exact absurd hp (by intro h; cases h)
  | release m => exact absurd hp (by intro h; cases h)
  | begin xs => exact absurd hp (by intro h; cases h)

/-- Two texts, a move, a mark given back, a writer. -/
example : let p := runH true ({}, []) [.add [97, 98] true, .add [99] true, .addInside 1 1, .add [100, 101] false, .release 5, .freeExtra true, .write [(102, true), (103, false)] false]
    p.2.map (fun h => p.1.read h.ref) = [some [102, 103], some [98], some [99], some [97, 98]] := by decide

/-- The hypotheses hold of that run. -/
example : let ops : List Op := [.add [97, 98] true, .add [99] true, .addInside 1 1, .add [100, 101] false, .release 5, .freeExtra true, .write [(102, true), (103, false)] false]
    LegalRun true ({}, []) ops ∧ (∀ op ∈ ops, Calm true op) ∧ Fits true ({}, []) ops := by
  refine ⟨⟨trivial, trivial, ?_, trivial, trivial, trivial, trivial, trivial⟩, ?_, ?_⟩
  · show 1 + 1 ≤ _
    decide
  · intro op h
    simp only [List.mem_cons, List.not_mem_nil, or_false] at h
    rcases h with rfl | rfl | rfl | rfl | rfl | rfl | rfl <;> trivial
  · refine ⟨?_, ?_, ?_, ?_, ?_, ?_, ?_, (?_ : List.length _ < _)⟩ <;> decide

/-- A text added through a changing iterator counts the zero behind it: "ab" reads as three characters. -/
theorem C122_violated : ¬ Claim122 true := fun h => by
  have := h [.addIter [97, 98] true] ⟨trivial, trivial⟩ ⟨mkRef 0 3, [97, 98], 3⟩ (by decide)
  revert this
  decide

/-- A writer that makes the pool move its block leaves every string held before with the old address until it is finished: reading is undefined.  It happens for any strings. -/
theorem C122_writer_violated (z : Bool) : ¬ Claim122 z := fun h => by
  have := h [.add [97] true, .begin [(98, true)]] ⟨trivial, trivial, trivial⟩ ⟨mkRef 0 1, [97], (zero z).length + 1⟩ (by cases z <;> decide)
  revert this
  cases z <;> decide

/-- A text loaded in parts through `add` and taken with `fromMark`, the way stringpool.h:136-138 says: the zeros of the parts are inside of it. -/
theorem C122_fromMark_violated : ∃ (a b : Str) (s : S), s = ((({} : S).add true a true).1.add true b true).1 ∧ s.read (s.fromMark 0) ≠ some (a ++ b) :=
  ⟨[97], [98], _, rfl, by decide⟩

/-- Without ending zeros parts can be joined that way: the text from a mark is what was added since. -/
theorem C122_fromMark_partial (s : S) (a b : Str) (ma mb : Bool) (hne : a ++ b ≠ []) (hf : (s.pool ++ a ++ b).length < 4294967296) :
    let s' := ((s.add false a ma).1.add false b mb).1
    s'.read (s'.fromMark s.pool.length) = some (a ++ b) := by
  have ad : ∀ (s : S) (t : Str) (mv : Bool), (s.add false t mv).1.pool = s.pool ++ t ∧ ((s.add false t mv).1.ref = some (s.add false t mv).1.blk ∨ (t = [] ∧ (s.add false t mv).1 = s)) := by
    intro s t mv
    unfold S.add
    by_cases h0 : t.length = 0
    · rw [if_pos h0, List.length_eq_zero_iff.mp h0]
      exact ⟨(List.append_nil _).symm, Or.inr ⟨rfl, rfl⟩⟩
    · rw [if_neg h0]
      refine ⟨?_, Or.inl rfl⟩
      show s.pool ++ (t ++ []) = _
      rw [List.append_nil]
  intro s'
  obtain ⟨pa, ra⟩ := ad s a ma
  obtain ⟨pb, rb⟩ := ad (s.add false a ma).1 b mb
  have hp : s'.pool = s.pool ++ (a ++ b) := by
    show ((s.add false a ma).1.add false b mb).1.pool = _
    rw [pb, pa, List.append_assoc]
  have hr : s'.ref = some s'.blk := by
    show ((s.add false a ma).1.add false b mb).1.ref = _
    rcases rb with h | ⟨hb, he⟩
    · exact h
    · show _ = some ((s.add false a ma).1.add false b mb).1.blk
      rw [he]
      rcases ra with h | ⟨ha, _⟩
      · exact h
      · exact absurd (by rw [ha, hb]; rfl) hne
  rw [List.append_assoc, List.length_append] at hf
  have hlen : s'.pool.length - s.pool.length = (a ++ b).length := by
    rw [hp, List.length_append]; omega
  have hpos : 0 < (a ++ b).length := List.length_pos_iff.mpr hne
  unfold S.read S.fromMark mkRef
  rw [hlen]
  show (if n32 (a ++ b).length = 0 then some [] else if s'.ref = some s'.blk ∧ n32 s.pool.length + n32 (a ++ b).length ≤ s'.pool.length then some ((s'.pool.drop (n32 s.pool.length)).take (n32 (a ++ b).length)) else none) = _
  rw [n32_small (by omega : s.pool.length < 4294967296), n32_small (by omega : (a ++ b).length < 4294967296)]
  rw [if_neg (by omega), if_pos ⟨hr, by rw [hp, List.length_append (as := s.pool)]; exact Nat.le_refl _⟩, hp, List.drop_left]
  rw [List.take_length]

example : let s := ((({} : S).add false [1, 2] true).1.add false [3] false).1; s.read (s.fromMark 0) = some [1, 2, 3] := by decide

/-- The documented limit is one: above it the offset of a new string is that of another one. -/
theorem C122_limit (s : S) (t : Str) (mv : Bool) (z : Bool) (h : s.pool.length = 4294967296) (ht : t ≠ []) : ((s.add z t mv).2).off = 0 := by
  unfold S.add
  rw [if_neg (fun h => ht (List.length_eq_zero_iff.mp h))]
  show n32 s.pool.length = 0
  rw [h]
  rfl

end LS.StrPool
