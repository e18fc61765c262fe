/-
JSON text: the serializer writes the texts of Verif.JsonSpec, and the parser reads them.
Properties C58, C59, C60, C94, C95.
-/
import Verif.JsonParse
import Verif.JsonFuel

namespace LS.Json

open Spec

/-! ## Serializer: characters -/

theorem valueFrom_zeros (n : Nat) (t : List Nat) : NumText.Spec.valueFrom 16 0 (List.replicate n 48 ++ t) = NumText.Spec.valueFrom 16 0 t := by
  induction n with
  | zero => rfl
  | succ n ih => rw [List.replicate_succ, List.cons_append, NumText.Spec.valueFrom]; exact ih

theorem escU_spec {c : Nat} (h : c < 0x10000) : ∃ z0 z1 z2 z3, escU c = .ok [92, 117, z0, z1, z2, z3] ∧ NumText.Spec.value 16 [z0, z1, z2, z3] = some c := by
  obtain ⟨t, e, hN⟩ := NumText.toStrU_numeral (base := 16) (val := c) true (by decide) (by decide) (by omega)
  have hl : t.length ≤ 4 := by
    by_cases h0 : 0 < c
    · have := hN.lower h0
      refine Nat.le_of_not_lt fun hg => ?_
      have h1 : 16 ^ 4 ≤ 16 ^ (t.length - 1) := Nat.pow_le_pow_right (by decide) (by omega)
      have h2 : (16 : Nat) ^ 4 = 0x10000 := by decide
      omega
    · have h0 : c = 0 := by omega
      subst h0
      have e' : NumText.toStrU 0 16 true = some [48] := rfl
      rw [e'] at e
      cases e; decide
  have hp : (pad4 t).length = 4 := by
    unfold pad4; rw [List.length_append, List.length_replicate]; omega
  have hv : NumText.Spec.valueFrom 16 0 (pad4 t) = some c := by unfold pad4; rw [valueFrom_zeros]; exact hN.value
  have hE : escU c = .ok (92 :: 117 :: pad4 t) := by unfold escU; rw [e]
  match hq : pad4 t, hp with
  | [z0, z1, z2, z3], _ =>
    rw [hq] at hv hE
    exact ⟨z0, z1, z2, z3, hE, hv⟩

theorem utf8_ascii {c : Nat} (h : c < 128) : Utf.utf8 c = [c] := by unfold Utf.utf8; rw [if_pos h]

theorem writeChar_chars {P : Domain} (hP : ∀ c, c < 32 → P.cp c) (c : Nat) : ∃ t, writeChar c = .ok t ∧ ∀ {u s}, Chars P u s → Chars P (t ++ u) (c :: s) := by
  unfold writeChar
  by_cases h1 : c = 13
  · rw [if_pos h1]; exact ⟨_, rfl, fun h => .short (by rw [h1]; decide) h⟩
  rw [if_neg h1]
  by_cases h2 : c = 12
  · rw [if_pos h2]; exact ⟨_, rfl, fun h => .short (by rw [h2]; decide) h⟩
  rw [if_neg h2]
  by_cases h3 : c = 10
  · rw [if_pos h3]; exact ⟨_, rfl, fun h => .short (by rw [h3]; decide) h⟩
  rw [if_neg h3]
  by_cases h4 : c = 9
  · rw [if_pos h4]; exact ⟨_, rfl, fun h => .short (by rw [h4]; decide) h⟩
  rw [if_neg h4]
  by_cases h5 : c = 8
  · rw [if_pos h5]; exact ⟨_, rfl, fun h => .short (by rw [h5]; decide) h⟩
  rw [if_neg h5]
  by_cases h6 : c = 92
  · rw [if_pos h6]; exact ⟨_, rfl, fun h => .short (by rw [h6]; decide) h⟩
  rw [if_neg h6]
  by_cases h7 : c = 34
  · rw [if_pos h7]; exact ⟨_, rfl, fun h => .short (by rw [h7]; decide) h⟩
  rw [if_neg h7]
  by_cases h8 : c < 32
  · rw [if_pos h8]
    obtain ⟨z0, z1, z2, z3, e, hv⟩ := escU_spec (c := c) (by omega)
    refine ⟨_, e, fun h => ?_⟩
    have := Chars.code hv (by omega) (hP c h8) h
    rw [utf8_ascii (by omega)] at this
    exact this
  · rw [if_neg h8]; exact ⟨_, rfl, fun h => .plain (by omega) h7 h6 h⟩

theorem chars_spec {P : Domain} (hP : ∀ c, c < 32 → P.cp c) (s : List Nat) : ∃ t, chars s = .ok t ∧ Chars P t s := by
  induction s with
  | nil => exact ⟨[], rfl, .nil⟩
  | cons c s ih =>
    obtain ⟨t, e, ht⟩ := writeChar_chars hP c
    obtain ⟨u, e', hu⟩ := ih
    exact ⟨t ++ u, by rw [chars, e]; simp only; rw [e'], ht hu⟩

/-! ## Serializer: escaped characters -/

theorem write_cont {s : Utf.Dec} {n x a : Nat} (h : Utf.inside s (n + 1) x) (hn : n < 6) (hx : x * 64 < 2147483648) (ha : a < 64) :
    s.write (0x80 + a) = some { s with outchar := some (x * 64 + a), state := n }.upd := by
  obtain ⟨h1, h2, h3⟩ := h
  have e : (x <<< 6) ||| ((0x80 + a) &&& 0x3F) = x * 64 + a := by
    rw [and_63, show (0x80 + a) % 64 = a by omega, shl_or x a 6 (by omega)]
  have e2 : x <<< 6 = x * 64 := Nat.shiftLeft_eq _ _
  simp only [Utf.Dec.write, h1, h2, e]
  rw [if_neg (by omega), if_neg (by omega), if_pos (by omega), if_neg (by omega)]
  rfl

theorem takeWide_step {s s' : Utf.Dec} {a : Nat} (l : List Nat) (hi : s.hasItems = false) (h : s.write a = some s') : takeWide s (a :: l) = takeWide s' l := by
  rw [takeWide, hi, h]; rfl

theorem takeWide_done {s : Utf.Dec} {c : Nat} (l : List Nat) (hi : s.hasItems = true) (h : s.outchar = some c) : takeWide s l = .ok (c, l) := by
  cases l <;> (rw [takeWide, hi, h]; rfl)

theorem takeWide_utf8 {c : Nat} (h : 128 ≤ c) (hc : c < 0x10000) (l : List Nat) : takeWide {} (Utf.utf8 c ++ l) = .ok (c, l) := by
  unfold Utf.utf8
  rw [if_neg (by omega)]
  by_cases h2 : c < 0x800
  · rw [if_pos h2]
    simp only [List.cons_append, List.nil_append]
    rw [takeWide_step _ rfl (Utf.dec_mark (s := {}) ⟨rfl, rfl⟩ .m1 (show c / 64 < 32 by omega))]
    rw [takeWide_step _ rfl (write_cont (n := 0) (x := c / 64) ⟨rfl, rfl, rfl⟩ (by omega) (by omega) (Nat.mod_lt _ (by decide)))]
    rw [takeWide_done _ rfl rfl, show c / 64 * 64 + c % 64 = c by omega]
  · rw [if_neg h2, if_pos hc]
    simp only [List.cons_append, List.nil_append]
    rw [takeWide_step _ rfl (Utf.dec_mark (s := {}) ⟨rfl, rfl⟩ .m2 (show c / 4096 < 16 by omega))]
    rw [takeWide_step _ rfl (write_cont (n := 1) (x := c / 4096) ⟨rfl, rfl, rfl⟩ (by omega) (by omega) (Nat.mod_lt _ (by decide)))]
    rw [takeWide_step _ rfl (write_cont (n := 0) (x := c / 4096 * 64 + c / 64 % 64) ⟨rfl, rfl, rfl⟩ (by omega) (by omega) (Nat.mod_lt _ (by decide)))]
    rw [takeWide_done _ rfl rfl, show (c / 4096 * 64 + c / 64 % 64) * 64 + c % 64 = c by omega]

/-- Code points which the escape `\uXXXX` can express. -/
def Bmp (c : Nat) : Prop := c < 0xD800 ∨ (0xE000 ≤ c ∧ c < 0x10000)

theorem utf8_pos {c : Nat} : ∃ a l, Utf.utf8 c = a :: l ∧ (128 ≤ c → 128 ≤ a) := by
  unfold Utf.utf8
  split
  · exact ⟨_, _, rfl, fun h => h⟩
  · split
    · exact ⟨_, _, rfl, fun _ => by omega⟩
    · split <;> exact ⟨_, _, rfl, fun _ => by omega⟩

theorem charsEsc_spec {P : Domain} (hP : ∀ c, c < 32 → P.cp c) (cs : List Nat) (h : ∀ c ∈ cs, Bmp c ∧ P.cp c) :
    ∀ fuel, (cs.flatMap Utf.utf8).length ≤ fuel → ∃ t, charsEsc fuel (cs.flatMap Utf.utf8) = .ok t ∧ Chars P t (cs.flatMap Utf.utf8) := by
  induction cs with
  | nil => intro fuel _; exact ⟨[], by cases fuel <;> rfl, .nil⟩
  | cons c cs ih =>
    intro fuel hf
    have hc := h c (by simp)
    have hcs := ih (fun d hd => h d (by simp [hd]))
    obtain ⟨a, l, e, ha⟩ := utf8_pos (c := c)
    rw [List.flatMap_cons] at hf ⊢
    by_cases h128 : c < 128
    · rw [utf8_ascii h128] at hf ⊢
      simp only [List.cons_append, List.nil_append, List.length_cons] at hf ⊢
      obtain ⟨k, rfl⟩ : ∃ k, fuel = k + 1 := ⟨fuel - 1, by omega⟩
      obtain ⟨u, eu, hu⟩ := hcs k (by omega)
      obtain ⟨t, et, ht⟩ := writeChar_chars hP c
      refine ⟨t ++ u, ?_, ht hu⟩
      rw [charsEsc, if_neg (by omega), et]
      simp only
      rw [eu]
    · have hb : c < 0x10000 := by have := hc.1; unfold Bmp at this; omega
      have htw := takeWide_utf8 (c := c) (by omega) hb (cs.flatMap Utf.utf8)
      have hpos : (cs.flatMap Utf.utf8).length < fuel := by
        rw [e] at hf; simp only [List.cons_append, List.length_append, List.length_cons] at hf; omega
      obtain ⟨k, rfl⟩ : ∃ k, fuel = k + 1 := ⟨fuel - 1, by omega⟩
      obtain ⟨u, eu, hu⟩ := hcs k (by omega)
      obtain ⟨z0, z1, z2, z3, ez, hv⟩ := escU_spec hb
      refine ⟨92 :: 117 :: z0 :: z1 :: z2 :: z3 :: u, ?_, Chars.code hv (by have := hc.1; unfold Bmp at this; omega) hc.2 hu⟩
      rw [e] at htw ⊢
      rw [List.cons_append] at htw ⊢
      rw [charsEsc, if_pos (ha (by omega)), htw]
      simp only
      rw [ez]
      simp only
      rw [eu]
      rfl

/-- The strings under consideration: any bytes, and with escapes UTF-8 of code points which one escape can express. -/
def StrOK (P : Domain) (esc : Bool) (s : List Nat) : Prop :=
  esc = true → ∃ cs : List Nat, s = cs.flatMap Utf.utf8 ∧ ∀ c ∈ cs, Bmp c ∧ P.cp c

theorem serString_spec {P : Domain} (hP : ∀ c, c < 32 → P.cp c) {esc : Bool} {s : List Nat} (h : StrOK P esc s) :
    ∃ t, serString esc s = .ok (34 :: t ++ [34]) ∧ Chars P t s := by
  unfold serString
  cases esc with
  | false =>
    obtain ⟨t, e, ht⟩ := chars_spec hP s
    refine ⟨t, ?_, ht⟩
    simp only [Bool.false_eq_true, if_false]
    unfold serStr; rw [e]
  | true =>
    obtain ⟨cs, rfl, hcs⟩ := h rfl
    obtain ⟨t, e, ht⟩ := charsEsc_spec hP cs hcs _ (Nat.le_refl _)
    refine ⟨t, ?_, ht⟩
    simp only [if_true]
    unfold serStrEsc; rw [e]

/-! ## Serializer: documents -/

theorem numeral_digits {t : List Nat} {n : Nat} (h : NumText.Numeral 10 n t) (hn : 0 < n) : Digits t n := by
  refine ⟨?_, .inr (h.lead hn)⟩
  unfold NumText.Spec.value; rw [if_neg h.ne]; exact h.value

theorem serInt_spec {P : Domain} {v : Int} (hl : -2 ^ 63 < v) (hu : v < 2 ^ 63) (hP : P.int v) : ∃ t, serInt v = .ok t ∧ Val P t (.int v) := by
  unfold serInt NumText.toStrS
  by_cases h0 : v = 0
  · subst h0
    exact ⟨[48], rfl, .pos (n := 0) ⟨rfl, .inl rfl⟩ hP⟩
  · rw [if_neg h0]
    by_cases hn : v < 0
    · rw [if_pos hn, if_neg (by omega)]
      obtain ⟨t, e, hN⟩ := NumText.extract_numeral (base := 10) true (by decide) (by decide) 64 (-v).toNat (by decide) (by omega)
      have hv : v = -((-v).toNat : Int) := by omega
      refine ⟨45 :: t, by rw [e]; rfl, ?_⟩
      rw [hv] at hP ⊢
      refine .neg ?_ hP
      exact numeral_digits hN (by omega)
    · rw [if_neg hn]
      obtain ⟨t, e, hN⟩ := NumText.extract_numeral (base := 10) true (by decide) (by decide) 64 v.toNat (by decide) (by omega)
      have hv : v = (v.toNat : Int) := by omega
      refine ⟨t, by rw [e], ?_⟩
      have hd := numeral_digits hN (by omega)
      rw [hv] at hP ⊢
      exact .pos hd hP

mutual

/-- The documents under consideration: no real numbers; fields sorted, as they always are (`addField_sorted`). -/
def Ok (P : Domain) (esc : Bool) : Doc → Prop
  | .null => True
  | .bool _ => True
  | .int v => -2 ^ 63 < v ∧ v < 2 ^ 63 ∧ P.int v
  | .flt _ => False
  | .str s => StrOK P esc s
  | .arr l => OkItems P esc l
  | .obj m => OkFields P esc m ∧ Sorted m

def OkItems (P : Domain) (esc : Bool) : Docs → Prop
  | .nil => True
  | .cons d l => Ok P esc d ∧ OkItems P esc l

def OkFields (P : Domain) (esc : Bool) : Fields → Prop
  | .nil => True
  | .cons k d m => StrOK P esc k ∧ Ok P esc d ∧ OkFields P esc m

end

theorem sorted_nodup {m : Fields} (h : Sorted m) : (keys m).Nodup := by
  refine List.Pairwise.imp ?_ ((sorted_iff m).1 h)
  rintro a b hab rfl
  rw [lt_irrefl] at hab; cases hab

theorem ws_nil : Ws [] := by intro c hc; cases hc

/-- The comma before an item which is not the first one. -/
def sepItems (first : Bool) : Docs → List Nat
  | .nil => []
  | .cons .. => if first then [] else [44]

def sepFields (first : Bool) : Fields → List Nat
  | .nil => []
  | .cons .. => if first then [] else [44]

mutual

theorem ser_spec {P : Domain} (hP : ∀ c, c < 32 → P.cp c) (esc : Bool) : ∀ (d : Doc), Ok P esc d → ∃ t, ser esc d = .ok t ∧ Val P t d
  | .null, _ => ⟨_, by rw [ser], .null⟩
  | .bool true, _ => ⟨_, by rw [ser], .true⟩
  | .bool false, _ => ⟨_, by rw [ser], .false⟩
  | .int v, h => by
    rw [Ok] at h
    rw [ser]; exact serInt_spec h.1 h.2.1 h.2.2
  | .flt _, h => by rw [Ok] at h; exact h.elim
  | .str s, h => by
    rw [Ok] at h
    obtain ⟨t, e, ht⟩ := serString_spec hP h
    exact ⟨_, by rw [ser, e], .str ht⟩
  | .arr l, h => by
    rw [Ok] at h
    obtain ⟨t, e, hi⟩ := serItems_spec hP esc l h
    refine ⟨91 :: t ++ [93], ?_, ?_⟩
    · rw [ser, e true]; cases l <;> rfl
    · rcases hi with ⟨rfl, rfl⟩ | hi
      · exact .empty ws_nil
      · have := Val.arr ws_nil hi
        simpa using this
  | .obj m, h => by
    rw [Ok] at h
    obtain ⟨t, e, hi⟩ := serFields_spec hP esc m h.1
    refine ⟨123 :: t ++ [125], ?_, ?_⟩
    · rw [ser, e true]; cases m <;> rfl
    · rcases hi with ⟨rfl, rfl⟩ | hi
      · exact .emptyObj ws_nil
      · have := Val.obj ws_nil hi (sorted_nodup h.2) h.2 (.refl _)
        simpa using this

theorem serItems_spec {P : Domain} (hP : ∀ c, c < 32 → P.cp c) (esc : Bool) : ∀ (l : Docs), OkItems P esc l →
    ∃ t, (∀ first, serItems esc first l = .ok (sepItems first l ++ t)) ∧ ((l = .nil ∧ t = []) ∨ Items P t l)
  | .nil, _ => ⟨[], fun first => by rw [serItems]; rfl, .inl ⟨rfl, rfl⟩⟩
  | .cons d l, h => by
    rw [OkItems] at h
    obtain ⟨t, e, ht⟩ := ser_spec hP esc d h.1
    obtain ⟨u, e', hi⟩ := serItems_spec hP esc l h.2
    refine ⟨t ++ (sepItems false l ++ u), fun first => ?_, .inr ?_⟩
    · rw [serItems, e]
      simp only
      rw [e' false]
      simp [sepItems]
    · rcases hi with ⟨rfl, rfl⟩ | hi
      · exact .one ht ws_nil
      · cases l with
        | nil => cases hi
        | cons d' l =>
          have := Items.cons ht ws_nil ws_nil hi
          simpa [sepItems] using this

theorem serFields_spec {P : Domain} (hP : ∀ c, c < 32 → P.cp c) (esc : Bool) : ∀ (m : Fields), OkFields P esc m →
    ∃ t, (∀ first, serFields esc first m = .ok (sepFields first m ++ t)) ∧ ((m = .nil ∧ t = []) ∨ Members P t m)
  | .nil, _ => ⟨[], fun first => by rw [serFields]; rfl, .inl ⟨rfl, rfl⟩⟩
  | .cons k d m, h => by
    rw [OkFields] at h
    obtain ⟨s, ek, hs⟩ := serString_spec hP h.1
    obtain ⟨t, e, ht⟩ := ser_spec hP esc d h.2.1
    obtain ⟨u, e', hi⟩ := serFields_spec hP esc m h.2.2
    refine ⟨34 :: s ++ 34 :: 58 :: t ++ (sepFields false m ++ u), fun first => ?_, .inr ?_⟩
    · rw [serFields, ek]
      simp only
      rw [e]
      simp only
      rw [e' false]
      simp [sepFields]
    · rcases hi with ⟨rfl, rfl⟩ | hi
      · have := Members.one hs ws_nil ws_nil ht ws_nil
        simpa [sepFields] using this
      · cases m with
        | nil => cases hi
        | cons k' d' m =>
          have := Members.cons hs ws_nil ws_nil ht ws_nil ws_nil hi
          simpa [sepFields] using this

end

/-! ## Serializer: ASCII -/

theorem escU_ascii {c : Nat} {t : List Nat} (hc : c < 2 ^ 64) (h : escU c = .ok t) : ∀ x ∈ t, x < 128 := by
  obtain ⟨u, e, hN⟩ := NumText.toStrU_numeral (base := 16) (val := c) true (by decide) (by decide) hc
  unfold escU at h
  rw [e] at h
  cases h
  intro x hx
  simp only [pad4, List.mem_cons, List.mem_append, List.mem_replicate] at hx
  rcases hx with rfl | rfl | ⟨_, rfl⟩ | hx
  · decide
  · decide
  · decide
  · have := (hN.range x hx).2; omega

theorem writeChar_ascii {c : Nat} {t : List Nat} (hc : c < 128) (h : writeChar c = .ok t) : ∀ x ∈ t, x < 128 := by
  unfold writeChar at h
  split at h
  · cases h; decide
  · split at h
    · cases h; decide
    · split at h
      · cases h; decide
      · split at h
        · cases h; decide
        · split at h
          · cases h; decide
          · split at h
            · cases h; decide
            · split at h
              · cases h; decide
              · split at h
                · exact escU_ascii (by omega) h
                · cases h; intro x hx; rw [List.mem_singleton.1 hx]; exact hc

/-- The filter never holds more than a C `wchar_t`. -/
def Small (s : Utf.Dec) : Prop := ∀ c, s.outchar = some c → c < 2 ^ 32

theorem write_small {s s' : Utf.Dec} {a : Nat} (ha : a < 256) (h : Small s) (e : s.write a = some s') : Small s' := by
  unfold Utf.Dec.write at e
  have hand : ∀ m, a &&& m < 2 ^ 32 := fun m => Nat.lt_of_le_of_lt Nat.and_le_left (by omega)
  repeat' split at e
  all_goals first
    | (cases e; done)
    | (cases e; intro c hc; simp only [Utf.Dec.upd, Option.some.injEq] at hc; first | (rw [← hc]; exact hand _) | (rw [← hc]; omega) | exact h c hc | skip)
  all_goals
    rw [← hc]
    exact Nat.or_lt_two_pow (by omega) (hand _)

theorem takeWide_small : ∀ (l : List Nat) (s : Utf.Dec) {c : Nat} {r : List Nat}, (∀ x ∈ l, x < 256) → Small s → takeWide s l = .ok (c, r) → c < 2 ^ 32 ∧ ∀ x ∈ r, x < 256 := by
  intro l
  induction l with
  | nil =>
    intro s c r _ hs h
    rw [takeWide] at h
    split at h
    · split at h
      · rename_i e; cases h; exact ⟨hs _ e, by simp⟩
      · cases h
    · cases h
  | cons a l ih =>
    intro s c r hl hs h
    rw [takeWide] at h
    split at h
    · split at h
      · rename_i e; cases h; exact ⟨hs _ e, hl⟩
      · cases h
    · split at h
      · cases h
      · rename_i e
        exact ih _ (fun x hx => hl x (by simp [hx])) (write_small (hl a (by simp)) hs e) h

theorem charsEsc_ascii : ∀ (fuel : Nat) {s t : List Nat}, (∀ c ∈ s, c < 256) → charsEsc fuel s = .ok t → ∀ x ∈ t, x < 128 := by
  intro fuel
  induction fuel with
  | zero => intro s t _ h; rw [charsEsc] at h; cases h; simp
  | succ fuel ih =>
    intro s t hs h
    cases s with
    | nil => rw [charsEsc] at h; cases h; simp
    | cons c s =>
      rw [charsEsc] at h
      split at h
      · split at h
        · cases h
        · rename_i e
          obtain ⟨h1, h2⟩ := takeWide_small _ _ hs (by intro c hc; cases hc) e
          split at h
          · cases h
          · rename_i e1
            split at h
            · cases h
            · rename_i e2
              cases h
              intro x hx
              rcases List.mem_append.1 hx with hx | hx
              · exact escU_ascii (by omega) e1 x hx
              · exact ih h2 e2 x hx
      · split at h
        · cases h
        · rename_i e1
          split at h
          · cases h
          · rename_i e2
            cases h
            intro x hx
            rcases List.mem_append.1 hx with hx | hx
            · exact writeChar_ascii (by omega) e1 x hx
            · exact ih (fun x hx => hs x (by simp [hx])) e2 x hx

/-! ## Property theorems -/

theorem good_ctl : ∀ c, c < 32 → good.cp c := by intro c h; exact ⟨by omega, by omega, by omega⟩

/-- C95 (part that holds): the parser reads every RFC 8259 text and leaves what follows it.  Missing: numbers with a
fraction or an exponent, numbers beyond 63 bits, the escapes of U+07FF and U+FFFF, pairs of surrogates, and a number of one
digit which is the whole input; see `c95_digit_violated`, `c95_escape_violated`, `c95_surrogates_violated`,
`c95_overflow_violated`. -/
theorem c95_reads_standard_partial {t : List Nat} {d : Doc} (h : Val good t d) {w : List Nat} (hw : Ws w) (rest : List Nat)
    (hr : ∀ v, d = .int v → (∃ c l, rest = c :: l ∧ stop c) ∨ (rest = [] ∧ 2 ≤ t.length)) : parseDoc (w ++ t ++ rest) = .ok (d, rest) := by
  unfold parseDoc
  rw [List.append_assoc]
  exact parse_skip hw (n := 2 * t.length) (by simp only [List.length_append]; omega) (fun f hf => parse_val h f rest hf hr)

/-- C94 (part that holds): the serializer writes an RFC 8259 text of the document.  Missing: real numbers, the integer
-2^63, and with escapes the code points above U+FFFF; see `c94_minimum_violated`, `c94_escape_violated`. -/
theorem c94_writes_standard_partial (esc : Bool) (d : Doc) (h : Ok full esc d) : ∃ t, ser esc d = .ok t ∧ Val full t d :=
  ser_spec (fun _ _ => trivial) esc d h

/-- C58: every byte string, whatever follows. -/
theorem c58_string_round_trip (s rest : List Nat) : ∃ t, ser false (.str s) = .ok t ∧ parseDoc (t ++ rest) = .ok (.str s, rest) := by
  obtain ⟨t, e, hv⟩ := ser_spec good_ctl false (.str s) (by rw [Ok]; intro h; cases h)
  exact ⟨t, e, c95_reads_standard_partial hv ws_nil rest (by intro v h; cases h)⟩

theorem val_int_length {t : List Nat} {v : Int} (h : Val good t (.int v)) (hv : v < 0 ∨ 9 < v) : 2 ≤ t.length := by
  generalize e : Doc.int v = d at h
  cases h <;> cases e
  · rename_i n _ hd
    have := (valueFrom_lt _ _ _ (value_from hd.1)).2
    refine Nat.le_of_not_lt fun hl => ?_
    have h1 : 10 ^ t.length ≤ 10 ^ 1 := Nat.pow_le_pow_right (by decide) (by omega)
    omega
  · rename_i hd _
    obtain ⟨c, l, rfl⟩ := NumText.value_ne hd.1
    simp

/-- C59 (part that holds): documents without real numbers and without -2^63, with both kinds of serializers; with escapes the
strings are as in C60.  Missing: an integer of one digit which is the whole input, see `c59_digit_violated`. -/
theorem c59_document_round_trip_partial (esc : Bool) (d : Doc) (h : Ok good esc d) (rest : List Nat)
    (hr : ∀ v, d = .int v → (∃ c l, rest = c :: l ∧ stop c) ∨ (rest = [] ∧ (v < 0 ∨ 9 < v))) :
    ∃ t, ser esc d = .ok t ∧ parseDoc (t ++ rest) = .ok (d, rest) := by
  obtain ⟨t, e, hv⟩ := ser_spec good_ctl esc d h
  refine ⟨t, e, c95_reads_standard_partial hv ws_nil rest ?_⟩
  intro v hd
  rcases hr v hd with h | ⟨h, hl⟩
  · exact .inl h
  · exact .inr ⟨h, val_int_length (hd ▸ hv) hl⟩

/-- C60: the output is ASCII, for every byte string which is accepted. -/
theorem c60_ascii {s t : List Nat} (hs : ∀ c ∈ s, c < 256) (h : ser true (.str s) = .ok t) : ∀ x ∈ t, x < 128 := by
  rw [ser, serString, if_pos rfl, serStrEsc] at h
  split at h
  · cases h
  · rename_i u e
    cases h
    intro x hx
    simp only [List.cons_append, List.mem_cons, List.mem_append, List.not_mem_nil, or_false] at hx
    rcases hx with rfl | hx | rfl
    · decide
    · exact charsEsc_ascii _ hs e x hx
    · decide

/-- C60 (part that holds): the round trip for code points below U+10000 without U+07FF and U+FFFF. -/
theorem c60_round_trip_partial (cs rest : List Nat) (h : ∀ c ∈ cs, (c < 0xD800 ∨ (0xE000 ≤ c ∧ c < 0x10000)) ∧ c ≠ 0x7FF ∧ c ≠ 0xFFFF) :
    ∃ t, ser true (.str (cs.flatMap Utf.utf8)) = .ok t ∧ parseDoc (t ++ rest) = .ok (.str (cs.flatMap Utf.utf8), rest) := by
  refine c59_document_round_trip_partial true _ ?_ rest (by intro v h; cases h)
  rw [Ok]
  exact fun _ => ⟨cs, rfl, fun c hc => ⟨(h c hc).1, by have := (h c hc).1; omega, (h c hc).2.1, (h c hc).2.2⟩⟩

/-- C60 does not hold: U+1F600 is written with five digits and comes back as U+1F60 and a zero, U+07FF comes back in three
bytes. -/
theorem c60_violated :
    (ser true (.str (Utf.utf8 0x1F600)) = .ok [34, 92, 117, 49, 70, 54, 48, 48, 34] ∧
      parseDoc [34, 92, 117, 49, 70, 54, 48, 48, 34] = .ok (.str (Utf.utf8 0x1F60 ++ [48]), [])) ∧
    (ser true (.str (Utf.utf8 0x7FF)) = .ok [34, 92, 117, 48, 55, 70, 70, 34] ∧
      parseDoc [34, 92, 117, 48, 55, 70, 70, 34] = .ok (.str [0xE0, 0x9F, 0xBF], []) ∧ Utf.utf8 0x7FF = [0xDF, 0xBF]) :=
  ⟨⟨by rfl, by rfl⟩, by rfl, by rfl, by rfl⟩

/-- C59 does not hold for an integer of one digit which is the whole document: the parser looks at the character behind it. -/
theorem c59_digit_violated (n : Nat) (h : n < 10) : ser false (.int n) = .ok [48 + n] ∧ parseDoc [48 + n] = .error .thrown := by
  match n, h with
  | 0, _ => exact ⟨by rfl, by rfl⟩
  | 1, _ => exact ⟨by rfl, by rfl⟩
  | 2, _ => exact ⟨by rfl, by rfl⟩
  | 3, _ => exact ⟨by rfl, by rfl⟩
  | 4, _ => exact ⟨by rfl, by rfl⟩
  | 5, _ => exact ⟨by rfl, by rfl⟩
  | 6, _ => exact ⟨by rfl, by rfl⟩
  | 7, _ => exact ⟨by rfl, by rfl⟩
  | 8, _ => exact ⟨by rfl, by rfl⟩
  | 9, _ => exact ⟨by rfl, by rfl⟩

/-- C59 and C94 do not hold for the least integer. -/
theorem c94_minimum_violated : ser false (.int (-2 ^ 63)) = .error .ub := by rfl

theorem val_str {P : Domain} {x s : List Nat} (h : Val P x (.str s)) : ∃ t, x = 34 :: t ++ [34] ∧ Chars P t s := by
  generalize e : Doc.str s = d at h
  cases h <;> cases e
  exact ⟨_, rfl, by assumption⟩

/-- C94 does not hold with escapes: the text of U+1F600 does not denote it. -/
theorem c94_escape_violated : ∃ t, ser true (.str (Utf.utf8 0x1F600)) = .ok t ∧ ¬ Val full t (.str (Utf.utf8 0x1F600)) := by
  refine ⟨_, c60_violated.1.1, fun h => ?_⟩
  obtain ⟨t, e, hc⟩ := val_str h
  have et : t = [92, 117, 49, 70, 54, 48, 48] := by
    simp only [List.cons_append, List.cons.injEq, true_and] at e
    exact (List.append_cancel_right (bs := [34]) (as := [92, 117, 49, 70, 54, 48, 48]) e).symm
  subst et
  generalize es : Utf.utf8 0x1F600 = s at hc
  have es' : s = [0xF0, 0x9F, 0x98, 0x80] := by rw [← es]; rfl
  cases hc with
  | plain _ _ h => exact h rfl
  | short h _ => exact absurd h (by simp [short])
  | code hv _ _ _ =>
    have e : (some 0x1F60 : Option Nat) = some _ := hv
    cases e
    have e2 : Utf.utf8 0x1F60 = [0xE1, 0xBD, 0xA0] := rfl
    rw [e2] at es'
    simp at es'

/-- C95 does not hold: a number of one digit which is the whole input. -/
theorem c95_digit_violated : Val full [53] (.int 5) ∧ parseDoc [53] = .error .thrown :=
  ⟨.pos (n := 5) ⟨rfl, .inr (by decide)⟩ trivial, by rfl⟩

/-- C95 does not hold: the escape of U+07FF gives three bytes which are not UTF-8. -/
theorem c95_escape_violated : Val full [34, 92, 117, 48, 55, 70, 70, 34] (.str [0xDF, 0xBF]) ∧
    parseDoc [34, 92, 117, 48, 55, 70, 70, 34] = .ok (.str [0xE0, 0x9F, 0xBF], []) :=
  ⟨.str (.code (c := 0x7FF) (t := []) (s := []) rfl (.inl (by decide)) trivial .nil), by rfl⟩

/-- C95 does not hold: a pair of surrogates gives six bytes instead of four. -/
theorem c95_surrogates_violated :
    Val full [34, 92, 117, 68, 56, 51, 68, 92, 117, 68, 69, 48, 48, 34] (.str (Utf.utf8 0x1F600)) ∧
    parseDoc [34, 92, 117, 68, 56, 51, 68, 92, 117, 68, 69, 48, 48, 34] = .ok (.str [0xED, 0xA0, 0xBD, 0xED, 0xB8, 0x80], []) :=
  ⟨.str (.pair (h := 0xD83D) (l := 0xDE00) (t := []) (s := []) rfl rfl (by decide) (by decide) (by decide) (by decide) trivial .nil), by rfl⟩

/-- C95 does not hold: 2^63 in an array becomes -2^63. -/
theorem c95_overflow_violated : Val full (91 :: [] ++ [57, 50, 50, 51, 51, 55, 50, 48, 51, 54, 56, 53, 52, 55, 55, 53, 56, 48, 56] ++ [93]) (.arr (.cons (.int (2 ^ 63)) .nil)) ∧
    parseDoc (91 :: [] ++ [57, 50, 50, 51, 51, 55, 50, 48, 51, 54, 56, 53, 52, 55, 55, 53, 56, 48, 56] ++ [93]) = .ok (.arr (.cons (.int (-2 ^ 63)) .nil), []) :=
  ⟨.arr ws_nil (.one (t := [57, 50, 50, 51, 51, 55, 50, 48, 51, 54, 56, 53, 52, 55, 55, 53, 56, 48, 56]) (w := []) (.pos (n := 2 ^ 63) ⟨by decide +kernel, .inr (by decide)⟩ trivial) ws_nil), by rfl⟩

/-! Concrete cases: `{"a":[1,-20,"x\n"],"b":null}` -/

def sample : Doc := .obj (.cons [97] (.arr (.cons (.int 1) (.cons (.int (-20)) (.cons (.str [120, 10]) .nil)))) (.cons [98] .null .nil))

example : ser false sample = .ok [123, 34, 97, 34, 58, 91, 49, 44, 45, 50, 48, 44, 34, 120, 92, 110, 34, 93, 44, 34, 98, 34, 58, 110, 117, 108, 108, 125] := by rfl
example : Ok good false sample := by
  simp only [sample, Ok, OkItems, OkFields, StrOK, good, sorted_iff, keys]
  refine ⟨⟨by simp, ?_, by simp, trivial, trivial⟩, by decide⟩
  simp
/-- A text with spaces, members out of order and a solidus escaped. -/
example : parseDoc [32, 123, 34, 98, 34, 32, 58, 49, 32, 44, 34, 97, 34, 58, 34, 92, 47, 34, 125, 33] =
    .ok (.obj (.cons [97] (.str [47]) (.cons [98] (.int 1) .nil)), [33]) := by rfl
example : Val good (123 :: [] ++ (34 :: [97] ++ 34 :: [] ++ 58 :: [32] ++ [49] ++ []) ++ [125]) (.obj (.cons [97] (.int 1) .nil)) :=
  .obj ws_nil (.one (.plain (by decide) (by decide) (by decide) .nil) ws_nil (by intro c hc; simp at hc; simp [hc]) (.pos (n := 1) ⟨rfl, .inr (by decide)⟩ ⟨by decide, by decide⟩) ws_nil)
    (by simp [keys]) (by simp [Sorted, keys]) (.refl _)
example : ser true (.str (Utf.utf8 0x20AC)) = .ok [34, 92, 117, 50, 48, 65, 67, 34] := by rfl
/-- Of members with the same name the first one stays. -/
example : parseDoc [123, 34, 97, 34, 58, 49, 44, 34, 97, 34, 58, 50, 125] = .ok (.obj (.cons [97] (.int 1) .nil), []) := by rfl

end LS.Json
