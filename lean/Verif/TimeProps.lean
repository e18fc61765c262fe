import Verif.Time
/-! # Properties C54, C55, C56, C67: time stamps, intervals, calendar -/

namespace LS.Time
open LS.Rat64 (toU toI)

/-! ## Specification -/

/-- Milliseconds since the base date. -/
def total (t : TS) : Int := t.day * 86400000 + t.time

/-- Fits the members: 32-bit day, time within a day. -/
structure WF (t : TS) : Prop where
  dayLo : -2147483648 ≤ t.day
  dayHi : t.day < 2147483648
  time : t.time < 86400000

/-- Gregorian leap year. -/
def leap (y : Int) : Bool := (decide (y % 4 = 0) && decide (y % 100 ≠ 0)) || decide (y % 400 = 0)

/-- Days in month `m` (1–12) of year `y`. -/
def monthLen (y m : Int) : Int :=
  if m = 2 then (if leap y then 29 else 28)
  else if m = 4 ∨ m = 6 ∨ m = 9 ∨ m = 11 then 30 else 31

/-- A valid date, years from 0 (bounded so that 64-bit arithmetic does not overflow). -/
structure Valid (y m d : Int) : Prop where
  y0 : 0 ≤ y
  y1 : y < 1125899906842624
  m0 : 1 ≤ m
  m1 : m ≤ 12
  d0 : 1 ≤ d
  d1 : d ≤ monthLen y m

/-- The following day. -/
def next (y m d : Int) : Int × Int × Int :=
  if d < monthLen y m then (y, m, d + 1)
  else if m < 12 then (y, m + 1, 1) else (y + 1, 1, 1)

/-! ## Time stamps -/

theorem toU_cast {n : Nat} (h : n < 9223372036854775808) : toU (n : Int) = n := by
  unfold toU; omega


theorem toI_small {u : Nat} (h : u < 9223372036854775808) : toI u = u := by
  unfold toI; split <;> omega


theorem mk_spec {day : Int} {time : Nat} (h1 : -2147483648 ≤ day) (h2 : day + (time / 86400000 : Nat) < 2147483648)
    : WF (mk day time) ∧ total (mk day time) = day * 86400000 + time := by
  have h : (mk day time).day = day + (time / 86400000 : Nat) := by
    simp only [mk, i32, toU, dayMillis]; omega
  have h' : (mk day time).time = time % 86400000 := rfl
  refine ⟨⟨by omega, by omega, by omega⟩, ?_⟩
  rw [total, h, h']; omega

theorem chk32_ok {x : Int} (h1 : -2147483648 ≤ x) (h2 : x < 2147483648) : chk32 x = some x := by
  rw [chk32, if_pos ⟨h1, h2⟩]

/-- C54: the sum of two time stamps is the exact sum, and its time of day is within a day. -/
theorem C54_add_exact (a b : TS) (ha : WF a) (hb : WF b)
    (hr : -2147483648 ≤ a.day + b.day ∧ a.day + b.day + 1 < 2147483648) :
    ∃ s, add a b = some s ∧ WF s ∧ total s = total a + total b := by
  have h1 := ha.time; have h2 := hb.time
  refine ⟨_, by simp only [add]; rw [chk32_ok (by omega) (by omega), Option.map_some], ?_⟩
  obtain ⟨w, t⟩ := mk_spec (day := a.day + b.day + (((a.time + b.time) % 4294967296 / dayMillis : Nat) : Int))
    (time := (a.time + b.time) % 4294967296 % dayMillis) (by simp only [dayMillis]; omega) (by simp only [dayMillis]; omega)
  refine ⟨w, t.trans ?_⟩
  simp only [total, dayMillis]; omega

/-- C54: the difference of two time stamps is exact (32-bit wrap-around of the borrow included). -/
theorem C54_sub_exact (a b : TS) (ha : WF a) (hb : WF b)
    (hr : -2147483648 ≤ a.day - b.day - 1 ∧ a.day - b.day < 2147483648) :
    ∃ s, sub a b = some s ∧ WF s ∧ total s = total a - total b := by
  have h1 := ha.time; have h2 := hb.time
  by_cases hlt : a.time < b.time
  · have e : fixUnderflow 32 0 ((a.time + (4294967296 - b.time)) % 4294967296) =
        some (1, a.time + 86400000 - b.time) := by
      have e1 : (a.time + (4294967296 - b.time)) % 4294967296 > 0x80000000 := by omega
      have e2 : ((a.time + (4294967296 - b.time)) % 4294967296 + dayMillis) % 4294967296 =
        a.time + 86400000 - b.time := by simp only [dayMillis]; omega
      rw [fixUnderflow, if_pos e1, e2, fixUnderflow, if_neg (by omega)]
      rfl
    refine ⟨_, by simp only [sub, e]; rw [chk32_ok (by omega) (by omega), Option.map_some], ?_⟩
    obtain ⟨w, t⟩ := mk_spec (day := a.day - b.day - 1) (time := a.time + 86400000 - b.time)
      (by omega) (by omega)
    exact ⟨w, t.trans (by simp only [total]; omega)⟩
  · have e : fixUnderflow 32 0 ((a.time + (4294967296 - b.time)) % 4294967296) =
        some (0, a.time - b.time) := by
      have e1 : (a.time + (4294967296 - b.time)) % 4294967296 = a.time - b.time := by omega
      rw [e1, fixUnderflow, if_neg (by omega)]
    refine ⟨_, by simp only [sub, e]; rw [chk32_ok (by omega) (by omega), Option.map_some], ?_⟩
    obtain ⟨w, t⟩ := mk_spec (day := a.day - b.day - 0) (time := a.time - b.time)
      (by omega) (by omega)
    exact ⟨w, t.trans (by simp only [total]; omega)⟩

theorem total_inj {a b : TS} (ha : WF a) (hb : WF b) (h : total a = total b) : a = b := by
  have h1 := ha.time; have h2 := hb.time
  cases a; cases b
  simp only [total, TS.mk.injEq] at *
  omega

/-- C54: adding an interval and taking it away again gives the original time stamp. -/
theorem C54_add_sub (a b : TS) (ha : WF a) (hb : WF b)
    (hr : -2147483648 ≤ a.day + b.day ∧ a.day + b.day + 1 < 2147483648)
    (hr2 : -2147483648 < a.day ∧ a.day + 1 < 2147483648) :
    (add a b).bind (fun s => sub s b) = some a := by
  obtain ⟨s, h1, h2, h3⟩ := C54_add_exact a b ha hb hr
  have t1 := ha.time; have t2 := hb.time; have t3 := h2.time
  have hd : s.day = a.day + b.day ∨ s.day = a.day + b.day + 1 := by
    simp only [total] at h3; omega
  obtain ⟨r, g1, g2, g3⟩ := C54_sub_exact s b h2 hb (by omega)
  rw [h1, Option.bind_some, g1, total_inj g2 ha (by omega)]

/-- C54: taking an interval away and adding it again gives the original time stamp. -/
theorem C54_sub_add (a b : TS) (ha : WF a) (hb : WF b)
    (hr : -2147483648 ≤ a.day - b.day - 1 ∧ a.day - b.day < 2147483648)
    (hr2 : -2147483648 < a.day ∧ a.day + 1 < 2147483648) :
    (sub a b).bind (fun s => add s b) = some a := by
  obtain ⟨s, h1, h2, h3⟩ := C54_sub_exact a b ha hb hr
  have t1 := ha.time; have t2 := hb.time; have t3 := h2.time
  have hd : s.day = a.day - b.day ∨ s.day = a.day - b.day - 1 := by
    simp only [total] at h3; omega
  obtain ⟨r, g1, g2, g3⟩ := C54_add_exact s b h2 hb (by omega)
  rw [h1, Option.bind_some, g1, total_inj g2 ha (by omega)]

/-- C54: comparison is the chronological order. -/
theorem C54_compare (a b : TS) (ha : WF a) (hb : WF b) :
    (compare a b = .less ↔ total a < total b) ∧ (compare a b = .equal ↔ a = b) ∧
    (compare a b = .greater ↔ total b < total a) := by
  have h1 := ha.time; have h2 := hb.time
  cases a; cases b
  simp only [compare, total, TS.mk.injEq] at *
  split
  · split
    · simp; omega
    · split <;> simp <;> omega
  · split <;> simp <;> omega

/-- C54: Unix time (not before the base date) survives the conversion to a time stamp and back. -/
theorem C54_unix_roundtrip_partial (t : Int) (h0 : 0 ≤ t) (h1 : t < 185542587187200) :
    WF (fromUnix t) ∧ total (fromUnix t) = t * 1000 ∧ asUnix (fromUnix t) = t := by
  obtain ⟨q, r, hr, rfl⟩ : ∃ q r : Nat, r < 86400 ∧ t = (q * 86400 + r : Nat) :=
    ⟨t.toNat / 86400, t.toNat % 86400, by omega, by omega⟩
  have hq : q < 2147483648 := by omega
  have hf : fromUnix ((q * 86400 + r : Nat) : Int) = mk q (r * 1000) := by
    have e1 : (q * 86400 + r) / 86400 = q := by omega
    have e2 : (q * 86400 + r) % 86400 = r := by omega
    have e3 : r * 1000 % 18446744073709551616 = r * 1000 := Nat.mod_eq_of_lt (by omega)
    rw [fromUnix, toU_cast (by omega), daySecs, e1, e2, e3, toI_small (by omega)]
  obtain ⟨w, e⟩ := mk_spec (day := (q : Int)) (time := r * 1000) (by omega) (by omega)
  have wt := w.time
  simp only [total] at e
  have hd : (mk q (r * 1000)).day = q := by omega
  have hti : (mk q (r * 1000)).time = r * 1000 := by omega
  rw [hf]
  refine ⟨w, by simp only [total]; omega, ?_⟩
  have hUq : toU (q : Int) = q := toU_cast (by omega)
  have e3 : q * daySecs + r * 1000 / 1000 = q * 86400 + r := by simp only [daySecs]; omega
  rw [asUnix, hd, hti, hUq, e3, toI_small (by omega)]

/-- C54 is false before the base date: one second before it does not survive. -/
theorem C54_unix_negative_violated : asUnix (fromUnix (-1)) ≠ -1 := by decide +kernel

example : add ⟨10, 86399000⟩ ⟨1, 2000⟩ = some ⟨12, 1000⟩ := by decide
example : sub ⟨12, 1000⟩ ⟨1, 2000⟩ = some ⟨10, 86399000⟩ := by decide

/-! ## Intervals -/

theorem interval_mk {n : Nat} {q r : Nat} (hq : q < 2147483647) (hr : r < 86400000)
    (h : q * 86400000 + r = n) : total (mk (toI q) r) = n := by
  rw [toI_small (by omega), (mk_spec (by omega) (by omega)).2]; omega

/-- C55: the constructors other than minutes denote exactly the named interval. -/
theorem C55_intervals_partial (n : Nat) (hn : n < 2147483647) :
    total (intervalMSec n) = n ∧ total (intervalSec n) = n * 1000 ∧
    total (intervalHour n) = n * 3600000 ∧ total (intervalDay n) = n * 86400000 := by
  refine ⟨?_, ?_, ?_, ?_⟩
  · exact interval_mk (by simp only [dayMillis]; omega) (by simp only [dayMillis]; omega) (by simp only [dayMillis]; omega)
  · rw [intervalSec, interval_mk (n := n * 1000) (by simp only [daySecs]; omega) (by simp only [daySecs]; omega) (by simp only [daySecs]; omega)]
    omega
  · rw [intervalHour, interval_mk (n := n * 3600000) (by omega) (by omega) (by omega)]; omega
  · rw [intervalDay, interval_mk (n := n * 86400000) (by omega) (by omega) (by omega)]; omega

/-- C55 is false for minutes: the result is right only below 144 minutes (ten times too long a
day is counted from there on). -/
theorem C55_minutes_violated (n : Nat) (hn : n < 2147483647) :
    total (intervalMin n) = n * 60000 ↔ n < 144 := by
  have : total (intervalMin n) = ((n / 144 * 86400000 + n % 144 * 1000 * 60 : Nat) : Int) :=
    interval_mk (by omega) (by omega) rfl
  rw [this]; omega

example : total (intervalMin 144) = 86400000 := by decide

/-! ## Calendar -/

theorem toU_nonneg {v : Int} (h0 : 0 ≤ v) (h1 : v < 9223372036854775808) : toU v = v.toNat := by
  unfold toU; omega

theorem intDiv_nonneg {v : Int} {d : Nat} (h0 : 0 ≤ v) (h1 : v < 9223372036854775808) :
    intDiv v d = v / d := by
  have hle := Nat.div_le_self v.toNat d
  have hc : ((v.toNat / d : Nat) : Int) = v / d := by
    rw [Int.natCast_ediv]; congr 1; omega
  rw [intDiv, toU_nonneg h0 h1, if_neg (by omega), ← hc]
  generalize v.toNat / d = q at *
  unfold toI; split <;> omega

theorem intModW_nonneg {v w : Int} {d : Nat} (h0 : 0 ≤ v) (h1 : v < 9223372036854775808)
    (hw0 : 0 ≤ w) (hw : w * d ≤ v) (hd : 0 < d) : intModW v d w = v - w * d := by
  obtain ⟨k, rfl⟩ : ∃ k : Nat, w = k := ⟨w.toNat, by omega⟩
  obtain ⟨x, rfl⟩ : ∃ k : Nat, v = k := ⟨v.toNat, by omega⟩
  have hk : k ≤ k * d := Nat.le_mul_of_pos_right _ hd
  have hkd : k * d ≤ x := by exact_mod_cast hw
  rw [intModW, toU_nonneg h0 h1, toU_nonneg hw0 (by omega), Int.toNat_natCast, Int.toNat_natCast]
  have hc : (k : Int) * (d : Int) = ((k * d : Nat) : Int) := by push_cast; rfl
  rw [hc]
  generalize k * d = q at *
  unfold toI; split <;> omega

theorem intMod_nonneg {v : Int} {d : Nat} (h0 : 0 ≤ v) (h1 : v < 9223372036854775808) (hd : 0 < d) :
    intMod v d = v % d := by
  rw [intMod, intDiv_nonneg h0 h1, intModW_nonneg h0 h1 (Int.ediv_nonneg h0 (by omega))
    (Int.ediv_mul_le _ (by omega)) hd, Int.emod_def, Int.mul_comm]

theorem daysToYear_nonneg {y : Int} (h0 : 0 ≤ y) (h1 : y < 1125899906842625) :
    daysToYear y = y * 365 + (y + 3) / 4 - (y + 99) / 100 + (y + 399) / 400 := by
  rw [daysToYear, intDiv_nonneg (by omega) (by omega), intDiv_nonneg (by omega) (by omega),
    intDiv_nonneg (by omega) (by omega)]
  rfl

theorem isLeapYear_nonneg {y : Int} (h0 : 0 ≤ y) (h1 : y < 1125899906842625) : isLeapYear y = leap y := by
  rw [isLeapYear, intMod_nonneg h0 (by omega) (by omega), intMod_nonneg h0 (by omega) (by omega),
    intMod_nonneg h0 (by omega) (by omega), leap]
  rfl

theorem daysToYear_succ {y : Int} (h0 : 0 ≤ y) (h1 : y < 1125899906842624) :
    daysToYear (y + 1) = daysToYear y + 365 + (if leap y then 1 else 0) := by
  rw [daysToYear_nonneg (by omega) (by omega), daysToYear_nonneg h0 (by omega)]
  have hl : (leap y = true) ↔ ((y % 4 = 0 ∧ y % 100 ≠ 0) ∨ y % 400 = 0) := by
    simp [leap]
  by_cases h : leap y = true
  · rw [if_pos h]; rw [hl] at h; omega
  · rw [if_neg h]; rw [hl] at h; omega

theorem daysToYear_mono {y z : Int} (h0 : 0 ≤ y) (h : y ≤ z) (h1 : z < 1125899906842625) :
    daysToYear y ≤ daysToYear z := by
  rw [daysToYear_nonneg h0 (by omega), daysToYear_nonneg (by omega) h1]; omega

/-- Length of month `k` (0–11) and days before it, as numbers. -/
def len (l : Bool) (k : Nat) : Int := (daysPerMonth l k).getD 0
def cum (l : Bool) (k : Nat) : Int := (monthSum l k).getD 0

theorem dpm_ok : ∀ l : Bool, ∀ k < 12, daysPerMonth l (k : Nat) = some (len l k) := by decide
theorem ms_ok : ∀ l : Bool, ∀ k < 13, monthSum l k = some (cum l k) := by decide
theorem cum_succ : ∀ l : Bool, ∀ k < 12, cum l (k + 1) = cum l k + len l k := by decide
theorem cum_year : ∀ l : Bool, cum l 12 = 365 + (if l then 1 else 0) := by decide
theorem len_bounds : ∀ l : Bool, ∀ k < 12, 28 ≤ len l k ∧ len l k ≤ 31 := by decide
theorem cum_zero : ∀ l : Bool, cum l 0 = 0 := by decide
theorem cum_mono : ∀ l : Bool, ∀ k < 13, ∀ j < k, cum l j + len l j ≤ cum l k := by decide
theorem len_monthLen (y : Int) : ∀ k < 12, monthLen y ((k : Nat) + 1 : Int) = len (leap y) k := by
  unfold monthLen
  generalize leap y = l
  revert l
  decide

/-- The day number as a formula, month counted from 0. -/
def V (y : Int) (k : Nat) (d : Int) : Int := daysToYear y + cum (leap y) k + d - 1

/-- The adjusting loop keeps the day number for days of up to a year. -/
theorem adjust_spec (f : Nat) : ∀ (y : Int) (k : Nat) (d : Int), 0 ≤ y → y + 1 < 1125899906842624 →
    k ≤ 12 → 1 ≤ d → d ≤ 365 → d + (y * 0) < f → y + d < 1125899906842624 →
    ∃ (y' : Int) (k' : Nat) (d' : Int), adjust f y (k : Int) d = some (y', (k' : Int), d', leap y') ∧ k' < 12 ∧
      0 ≤ y' ∧ y' < 1125899906842624 ∧ V y' k' d' = daysToYear y + cum (leap y) k + d - 1 := by
  induction f with
  | zero => intro y k d _ _ _ h1 _ h2; omega
  | succ f ih =>
    intro y k d hy0 hy1 hk hd0 hd1 hf hyd
    -- normal form of the month
    obtain ⟨y2, k2, e1, e2, hk2, hy20, hy21, hV⟩ : ∃ y2 : Int, ∃ k2 : Nat, y + intDiv k 12 = y2 ∧
        intModW k 12 (intDiv k 12) = (k2 : Int) ∧ k2 < 12 ∧ 0 ≤ y2 ∧ y2 ≤ y + 1 ∧
        daysToYear y2 + cum (leap y2) k2 = daysToYear y + cum (leap y) k := by
      have i1 : intDiv k 12 = (k : Int) / 12 := intDiv_nonneg (by omega) (by omega)
      have i2 : intModW k 12 (intDiv k 12) = (k : Int) - (k : Int) / 12 * 12 := by
        rw [i1]; exact intModW_nonneg (by omega) (by omega) (by omega) (by omega) (by omega)
      by_cases h : k = 12
      · subst h
        refine ⟨y + 1, 0, by rw [i1]; rfl, by rw [i2]; rfl, by omega, by omega, by omega, ?_⟩
        rw [daysToYear_succ hy0 (by omega), cum_year, cum_zero]; omega
      · refine ⟨y, k, by rw [i1]; omega, by rw [i2]; omega, by omega, hy0, by omega, rfl⟩
    have hl : isLeapYear y2 = leap y2 := isLeapYear_nonneg hy20 (by omega)
    have b1 : ¬ d > 365 + (if leap y2 then 1 else 0) := by split <;> omega
    have b2 : ¬ d < 1 - (365 + (if leap y2 then 1 else 0)) := by split <;> omega
    have hlen := len_bounds (leap y2) k2 hk2
    by_cases h : d > len (leap y2) k2
    · by_cases hyy : y2 + 1 < 1125899906842624
      · obtain ⟨y', k', d', g1, g2, g3, g3', g4⟩ := ih y2 (k2 + 1) (d - len (leap y2) k2) hy20 hyy
          (by omega) (by omega) (by omega) (by omega) (by omega)
        refine ⟨y', k', d', ?_, g2, g3, g3', ?_⟩
        · have hs : adjustStep y k d = .again y2 (k2 + 1) (d - len (leap y2) k2) := by
            rw [adjustStep, e1, e2, hl, adjustYear, if_neg b1, if_neg b2, adjustMonth, dpm_ok (leap y2) k2 hk2]
            simp only [if_pos h]
          rw [adjust, hs]
          exact_mod_cast g1
        · rw [g4, cum_succ _ _ hk2]; omega
      · omega
    · refine ⟨y2, k2, d, ?_, hk2, hy20, by omega, ?_⟩
      · have hs : adjustStep y k d = .done y2 k2 d (leap y2) := by
          rw [adjustStep, e1, e2, hl, adjustYear, if_neg b1, if_neg b2, adjustMonth, dpm_ok (leap y2) k2 hk2]
          simp only [if_neg h, if_neg (show ¬ d < 1 by omega)]
        rw [adjust, hs]
      · simp only [V]; omega

/-- C67 (part that holds): a day of 1 to 365, counted from any month of any year, is adjusted to
the right date.  Missing: larger and non-positive days (`C67_day_overflow_violated`). -/
theorem C67_day_overflow_partial (y m d : Int) (hy : 0 ≤ y) (hy1 : y < 1125899906842000)
    (hm : 1 ≤ m ∧ m ≤ 12) (hd : 1 ≤ d ∧ d ≤ 365) (f : Nat) (hf : 365 < f) :
    ∃ n, dayNumber f y m 1 = some n ∧ dayNumber f y m d = some (n + (d - 1)) := by
  have key : ∀ d : Int, 1 ≤ d → d ≤ 365 →
      dayNumber f y m d = some (V y (m - 1).toNat d) := by
    intro d h1 h2
    obtain ⟨y', k', d', g1, g2, g3, g3', g4⟩ := adjust_spec f y (m - 1).toNat d hy (by omega) (by omega) h1 h2
      (by omega) (by omega)
    have hm1 : (((m - 1).toNat : Nat) : Int) = m - 1 := by omega
    rw [hm1] at g1
    rw [dayNumber, if_neg (by omega)]
    simp only [g1, Int.toNat_natCast, ms_ok _ _ (show k' < 13 by omega), Option.map_some]
    simp only [V] at *
    congr 1; omega
  refine ⟨_, key 1 (by omega) (by omega), ?_⟩
  rw [key d hd.1 hd.2]
  simp only [V]; congr 1; omega

/-- C67 is false for the code: the 366th day counted from 1 March 2011 is taken to be 1 March 2012
(it is 29 February), and day 0 of a January reads outside of the month table. -/
theorem C67_day_overflow_violated :
    dayNumber 400 2011 3 366 = dayNumber 400 2012 3 1 ∧
    dayNumber 400 2011 3 365 = dayNumber 400 2012 2 28 ∧
    dayNumber 400 2012 2 28 ≠ (dayNumber 400 2012 3 1).map (· - 1) ∧
    dayNumber 400 2012 1 0 = none := by decide +kernel

theorem dayNumber_valid {y m d : Int} (h : Valid y m d) (f : Nat) :
    dayNumber (f + 1) y m d = some (V y (m - 1).toNat d) := by
  obtain ⟨k, hk, rfl⟩ : ∃ k : Nat, k < 12 ∧ m = k + 1 := ⟨(m - 1).toNat, by have := h.m0; have := h.m1; omega, by have := h.m0; omega⟩
  have h0 := h.y0; have h1 := h.y1; have h2 := h.d0; have h3 := h.d1
  rw [len_monthLen y k hk] at h3
  have hb := len_bounds (leap y) k hk
  have i1 : intDiv ((k : Int)) 12 = 0 := by rw [intDiv_nonneg (by omega) (by omega)]; omega
  have i2 : intModW (k : Int) 12 0 = k := by rw [intModW_nonneg (by omega) (by omega) (by omega) (by omega) (by omega)]; omega
  have hl : isLeapYear y = leap y := isLeapYear_nonneg h0 (by omega)
  have b1 : ¬ d > 365 + (if leap y then 1 else 0) := by split <;> omega
  have b2 : ¬ d < 1 - (365 + (if leap y then 1 else 0)) := by split <;> omega
  have hkk : (k : Int) + 1 - 1 = k := by omega
  have hs : adjustStep y k d = .done y k d (leap y) := by
    rw [adjustStep, i1, i2, Int.add_zero, hl, adjustYear, if_neg b1, if_neg b2, adjustMonth, dpm_ok (leap y) k hk]
    simp only [if_neg (show ¬ d > len (leap y) k by omega), if_neg (show ¬ d < 1 by omega)]
  have ha : adjust (f + 1) y k d = some (y, (k : Int), d, leap y) := by rw [adjust, hs]
  rw [dayNumber, if_neg (by omega)]
  simp only [hkk, ha, Int.toNat_natCast, ms_ok _ _ (show k < 13 by omega), Option.map_some, V]
  exact congrArg some (by omega)

/-- C56 (first part): day numbers start at 0 for 1 January of year 0, and consecutive dates have
consecutive day numbers. -/
theorem C56_consecutive (y m d : Int) (h : Valid y m d) (hy : y + 1 < 1125899906842624) (f : Nat) :
    dayNumber (f + 1) 0 1 1 = some 0 ∧
    Valid (next y m d).1 (next y m d).2.1 (next y m d).2.2 ∧
    dayNumber (f + 1) (next y m d).1 (next y m d).2.1 (next y m d).2.2 =
      (dayNumber (f + 1) y m d).map (· + 1) := by
  refine ⟨?_, ?_⟩
  · rw [dayNumber_valid ⟨by omega, by omega, by omega, by omega, by omega, by decide⟩]; decide
  · have hv := h
    obtain ⟨h0, h1, h2, h3, h4, h5⟩ := h
    rw [dayNumber_valid hv, Option.map_some]
    obtain ⟨k, hk, rfl⟩ : ∃ k : Nat, k < 12 ∧ m = k + 1 := ⟨(m - 1).toNat, by omega, by omega⟩
    have hkk : ((k : Int) + 1 - 1).toNat = k := by omega
    rw [hkk]
    by_cases hd : d < monthLen y (k + 1)
    · have e : next y ((k : Int) + 1) d = (y, (k : Int) + 1, d + 1) := by rw [next, if_pos hd]
      rw [e]
      have hv2 : Valid y ((k : Int) + 1) (d + 1) := ⟨h0, h1, h2, h3, by omega, by omega⟩
      refine ⟨hv2, ?_⟩
      rw [dayNumber_valid hv2, hkk]
      simp only [V]; congr 1; omega
    · have hdl : d = len (leap y) k := by rw [len_monthLen y k hk] at h5 hd; omega
      by_cases hm : (k : Int) + 1 < 12
      · have e : next y ((k : Int) + 1) d = (y, (k : Int) + 1 + 1, 1) := by rw [next, if_neg hd, if_pos hm]
        rw [e]
        have hb := len_bounds (leap y) (k + 1) (by omega)
        have hlm := len_monthLen y (k + 1) (by omega)
        rw [show (((k + 1 : Nat) : Int) + 1) = (k : Int) + 1 + 1 by omega] at hlm
        have hv2 : Valid y ((k : Int) + 1 + 1) 1 := ⟨h0, h1, by omega, by omega, by omega, by omega⟩
        refine ⟨hv2, ?_⟩
        rw [dayNumber_valid hv2, show ((k : Int) + 1 + 1 - 1).toNat = k + 1 by omega]
        simp only [V, cum_succ _ _ hk]; congr 1; omega
      · have e : next y ((k : Int) + 1) d = (y + 1, 1, 1) := by rw [next, if_neg hd, if_neg hm]
        rw [e]
        have hlm := len_monthLen (y + 1) 0 (by omega)
        have hb := len_bounds (leap (y + 1)) 0 (by omega)
        rw [show (((0 : Nat) : Int) + 1) = 1 by omega] at hlm
        have hv2 : Valid (y + 1) 1 1 := ⟨by omega, by omega, by omega, by omega, by omega, by omega⟩
        refine ⟨hv2, ?_⟩
        rw [dayNumber_valid hv2, show ((1 : Int) - 1).toNat = 0 by omega]
        have h11 : k = 11 := by omega
        subst h11
        have hc := cum_succ (leap y) 11 (by omega)
        rw [cum_year] at hc
        simp only [V, cum_zero]
        rw [daysToYear_succ h0 (by omega)]
        congr 1; omega

theorem findYear_spec (f : Nat) : ∀ (g : Int) (n y : Int), 0 ≤ y → y ≤ g → g < 1125899906842625 →
    daysToYear y ≤ n → n < daysToYear (y + 1) → (g - y).toNat < f → findYear f n g = some y := by
  induction f with
  | zero => intro g n y _ _ _ _ _ h; omega
  | succ f ih =>
    intro g n y h0 h1 h2 h3 h4 h5
    rw [findYear]
    by_cases h : g = y
    · subst h; rw [if_neg (by omega)]
    · have := daysToYear_mono (y := y + 1) (z := g) (by omega) (by omega) h2
      rw [if_pos (by omega)]
      exact ih (g - 1) n y h0 (by omega) (by omega) h3 h4 (by omega)

theorem findMonth_spec (l : Bool) (f : Nat) : ∀ (k j : Nat) (r : Int), k ≤ j → j < 12 → 0 ≤ r →
    r ≤ len l j → (j = 0 ∨ 0 < r) → j - k < f →
    findMonth l f (k : Int) (cum l j - cum l k + r) = some ((j : Int), r) := by
  induction f with
  | zero => intro k j r _ _ _ _ _ h; omega
  | succ f ih =>
    intro k j r h1 h2 h3 h4 h5 h6
    rw [findMonth, dpm_ok l k (by omega)]
    simp only
    by_cases h : k = j
    · subst h
      rw [if_neg (by omega), Int.sub_self, Int.zero_add]
    · have hm := cum_mono l j (by omega) k (by omega)
      have hc := cum_succ l k (by omega)
      rw [if_pos (by omega)]
      have := ih (k + 1) j r (by omega) h2 h3 h4 h5 (by omega)
      rw [show cum l j - cum l k + r - len l k = cum l j - cum l (k + 1) + r by omega]
      exact_mod_cast this

/-- What `dateFromDayNumber` computes for the day number of a valid date: the first day of a month
other than January comes out as the day after the end of the previous month, every other date
comes out right. -/
theorem C56_computed (y m d : Int) (h : Valid y m d) (f : Nat) (n : Int)
    (hn : dayNumber 1 y m d = some n) (hf : n.toNat < f) (hy : y < 562949953421312) :
    computeDate f n =
      some (if d = 1 ∧ m ≠ 1 then (y, m - 1, monthLen y (m - 1) + 1) else (y, m, d)) := by
  have hv := dayNumber_valid h 0
  rw [hn] at hv
  cases hv
  obtain ⟨h0, h1, h2, h3, h4, h5⟩ := h
  obtain ⟨k, hk, rfl⟩ : ∃ k : Nat, k < 12 ∧ m = k + 1 := ⟨(m - 1).toNat, by omega, by omega⟩
  have hkk : ((k : Int) + 1 - 1).toNat = k := by omega
  rw [len_monthLen y k hk] at h5
  rw [hkk] at hf ⊢
  have hy0 := daysToYear_nonneg h0 (by omega)
  have hy1 := daysToYear_succ h0 (by omega)
  have hc0 : 0 ≤ cum (leap y) k := by
    have hx : ∀ l : Bool, ∀ k < 12, 0 ≤ cum l k := by decide
    exact hx _ _ hk
  have hc1 : cum (leap y) k + len (leap y) k ≤ 365 + (if leap y then 1 else 0) := by
    have := cum_mono (leap y) 12 (by omega) k hk
    rwa [cum_year] at this
  have hlo : daysToYear y ≤ V y k d := by simp only [V]; omega
  have hhi : V y k d < daysToYear (y + 1) := by simp only [V]; omega
  have hg : intDiv (V y k d) 365 = V y k d / 365 := by
    rw [intDiv_nonneg (by simp only [V]; omega) (by simp only [V]; split at hy1 <;> omega)]; rfl
  have hfy : findYear f (V y k d) (intDiv (V y k d) 365) = some y := by
    rw [hg]
    refine findYear_spec f _ _ y h0 ?_ ?_ hlo hhi ?_
    · omega
    · split at hy1 <;> omega
    · omega
  have hl : isLeapYear y = leap y := isLeapYear_nonneg h0 (by omega)
  have hrest : V y k d - daysToYear y = cum (leap y) k + d - 1 := by simp only [V]; omega
  rw [computeDate, hfy]
  simp only [hl, hrest]
  by_cases hfirst : d = 1 ∧ (k : Int) + 1 ≠ 1
  · obtain ⟨j, rfl⟩ : ∃ j, k = j + 1 := ⟨k - 1, by omega⟩
    have hj := len_bounds (leap y) j (by omega)
    have hc := cum_succ (leap y) j (by omega)
    have hm := findMonth_spec (leap y) 13 0 j (len (leap y) j) (by omega) (by omega) (by omega)
      (by omega) (by omega) (by omega)
    rw [cum_zero, Int.sub_zero, ← hc] at hm
    rw [if_pos hfirst, show cum (leap y) (j + 1) + d - 1 = cum (leap y) (j + 1) by omega]
    have e0 : (((0 : Nat)) : Int) = 0 := rfl
    rw [e0] at hm
    rw [hm]
    simp only
    have := len_monthLen y j (by omega)
    rw [show (((j + 1 : Nat) : Int) + 1 - 1) = (j : Int) + 1 by omega, this]
  · have hm := findMonth_spec (leap y) 13 0 k (d - 1) (by omega) hk (by omega) (by omega)
      (by omega) (by omega)
    rw [cum_zero, Int.sub_zero] at hm
    have e0 : (((0 : Nat)) : Int) = 0 := rfl
    rw [e0] at hm
    rw [if_neg hfirst, show cum (leap y) k + d - 1 = cum (leap y) k + (d - 1) by omega, hm]
    simp only
    rw [show d - 1 + 1 = d by omega]

/-- C56 is false for the code: `getParts` swaps year and day, so every date whose year is not equal
to its day comes back wrong. -/
theorem C56_roundtrip_violated (y m d : Int) (h : Valid y m d) (f : Nat) (n : Int)
    (hn : dayNumber 1 y m d = some n) (hf : n.toNat < f) (hy : y < 562949953421312) (hyd : y ≠ d) :
    dateFromDayNumber f n ≠ some { year := y, month := m, day := d } := by
  rw [dateFromDayNumber, C56_computed y m d h f n hn hf hy]
  split
  · simp only [Option.map_some, ne_eq, Option.some.injEq, Parts.mk.injEq]
    intro ⟨a, b, c⟩; omega
  · simp only [Option.map_some, ne_eq, Option.some.injEq, Parts.mk.injEq]
    intro ⟨a, b, c⟩; omega

example : dayNumber 1 2012 2 29 = some 734927 := by decide +kernel
example : computeDate 40 734927 = some (2012, 2, 29) := by decide +kernel
example : dateFromDayNumber 40 734927 = some { year := 29, month := 2, day := 2012 } := by decide +kernel
example : computeDate 40 734928 = some (2012, 2, 30) := by decide +kernel
example : Valid 2012 2 29 := ⟨by decide, by decide, by decide, by decide, by decide, by decide⟩

end LS.Time
