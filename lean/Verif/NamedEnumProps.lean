import Verif.NamedEnum
import Verif.HeapProps
import Verif.StrCmpProps
/-!
# Properties of `NamedEnum` (C126)
-/

namespace LS.NamedEnum
open LS.ArrayT (Cmp Lex Right)
open LS.Heap (StrictWeak Sorted)

/-- Names of strings that fit into memory. -/
def Small (defs : List Def) : Prop := ∀ d ∈ defs, d.name.length < 2 ^ 64

/-! ## Orders -/

theorem lex_tri (a b : List Nat) : Lex a b ∨ a = b ∨ Lex b a := by
  induction a generalizing b with
  | nil =>
    cases b with
    | nil => exact Or.inr (Or.inl rfl)
    | cons y b => exact Or.inl .nil
  | cons x a ih =>
    cases b with
    | nil => exact Or.inr (Or.inr .nil)
    | cons y b =>
      rcases Nat.lt_trichotomy x y with h | h | h
      · exact Or.inl (.head h)
      · subst h
        rcases ih b with h | h | h
        · exact Or.inl (.tail h)
        · exact Or.inr (Or.inl (by rw [h]))
        · exact Or.inr (Or.inr (.tail h))
      · exact Or.inr (Or.inr (.head h))

theorem item_small {defs : List Def} (hs : Small defs) (i : Nat) : (item defs i).name.length < 2 ^ 64 := by
  unfold item
  cases h : defs[i]? with
  | none => simp
  | some d => exact hs d (List.mem_of_getElem? h)

theorem lessName_iff {defs : List Def} (hs : Small defs) (i j : Nat) : lessName defs i j = true ↔ Lex (item defs i).name (item defs j).name := by
  obtain ⟨c, h1, h2⟩ := LS.StrCmp.cmp_right _ _ (item_small hs i) (item_small hs j)
  unfold lessName
  rw [h1]
  have := (LS.StrCmp.right_iff h2).1
  simpa using this

theorem name_weak {defs : List Def} (hs : Small defs) : StrictWeak (lessName defs) := by
  constructor
  · intro a b h
    have h1 := (lessName_iff hs a b).mp h
    cases h2 : lessName defs b a with
    | false => rfl
    | true => exact absurd ((lessName_iff hs b a).mp h2) h1.asymm
  · intro a b c h1 h2
    cases h3 : lessName defs a c with
    | false => rfl
    | true =>
      have h4 := (lessName_iff hs a c).mp h3
      have n1 : ¬ Lex (item defs a).name (item defs b).name := fun h => by
        rw [(lessName_iff hs a b).mpr h] at h1
        cases h1
      have n2 : ¬ Lex (item defs b).name (item defs c).name := fun h => by
        rw [(lessName_iff hs b c).mpr h] at h2
        cases h2
      exfalso
      rcases lex_tri (item defs a).name (item defs b).name with h | h | h
      · exact n1 h
      · rw [h] at h4
        exact n2 h4
      · exact n2 (h.trans h4)

theorem enm_weak (defs : List Def) : StrictWeak (lessEnm defs) := by
  constructor
  · intro a b h
    simp only [lessEnm, decide_eq_true_eq, decide_eq_false_iff_not] at h ⊢
    omega
  · intro a b c h1 h2
    simp only [lessEnm, decide_eq_false_iff_not] at h1 h2 ⊢
    omega

/-! ## Binary search -/

/-- Binary search over places `0 … n-1`, where what is looked for is greater than the items of a beginning and less
than those of an end. -/
theorem search_spec (probe : Nat → Option Cmp) (n : Nat) (h0 : ∀ c, c < n → probe c = some .less ∨ probe c = some .equal ∨ probe c = some .greater)
    (hl : ∀ c d, c ≤ d → d < n → probe c = some .less → probe d = some .less) (hg : ∀ c d, c ≤ d → d < n → probe d = some .greater → probe c = some .greater) :
    ∀ fuel h t, t ≤ n → t - h ≤ fuel → (∀ c, c < h → c < n → probe c = some .greater) → (∀ c, t ≤ c → c < n → probe c = some .less) →
      (∃ c, search probe fuel h t = some (some c) ∧ c < n ∧ probe c = some .equal) ∨ (search probe fuel h t = some none ∧ ∀ c, c < n → probe c ≠ some .equal) := by
  intro fuel
  induction fuel with
  | zero =>
    intro h t ht hf h1 h2
    refine Or.inr ⟨?_, fun c hc => ?_⟩
    · unfold search
      rw [if_neg (by omega)]
    · by_cases hch : c < h
      · rw [h1 c hch hc]; simp
      · rw [h2 c (by omega) hc]; simp
  | succ fuel ih =>
    intro h t ht hf h1 h2
    unfold search
    by_cases hlt : h < t
    · rw [if_pos hlt]
      have hm : (h + t) / 2 < n := by omega
      rcases h0 _ hm with hp | hp | hp
      · rw [hp]
        exact ih h _ (by omega) (by omega) h1 (fun c hc hcn => hl _ c hc hcn hp)
      · rw [hp]
        exact Or.inl ⟨_, rfl, hm, hp⟩
      · rw [hp]
        exact ih _ t ht (by omega) (fun c hc hcn => hg c _ (by omega) hm hp) h2
    · rw [if_neg hlt]
      refine Or.inr ⟨rfl, fun c hc => ?_⟩
      by_cases hch : c < h
      · rw [h1 c hch hc]; simp
      · rw [h2 c (by omega) hc]; simp

/-- What the orders are. -/
structure Ordered (defs : List Def) (less : Nat → Nat → Bool) (ord : List Nat) : Prop where
  perm : ord.Perm (List.range defs.length)
  sorted : Sorted less ord

theorem Ordered.get {defs : List Def} {less : Nat → Nat → Bool} {ord : List Nat} (h : Ordered defs less ord) {c : Nat} (hc : c < defs.length) :
    ∃ i d, ord[c]? = some i ∧ defs[i]? = some d := by
  have hl : ord.length = defs.length := by simpa using h.perm.length_eq
  have hc' : c < ord.length := by omega
  have hm : ord[c] ∈ List.range defs.length := h.perm.subset (List.getElem_mem hc')
  have hi : ord[c] < defs.length := List.mem_range.mp hm
  exact ⟨ord[c], defs[ord[c]], List.getElem?_eq_getElem hc', List.getElem?_eq_getElem hi⟩

/-- Every definition has a place. -/
theorem Ordered.place {defs : List Def} {less : Nat → Nat → Bool} {ord : List Nat} (h : Ordered defs less ord) {i : Nat} (hi : i < defs.length) :
    ∃ c, c < defs.length ∧ ord[c]? = some i := by
  have hm : i ∈ ord := h.perm.symm.subset (List.mem_range.mpr hi)
  obtain ⟨c, hc, he⟩ := List.getElem_of_mem hm
  have hl : ord.length = defs.length := by simpa using h.perm.length_eq
  exact ⟨c, by omega, by rw [List.getElem?_eq_getElem hc, he]⟩

theorem Ordered.le {defs : List Def} {less : Nat → Nat → Bool} {ord : List Nat} (h : Ordered defs less ord) {c d i j : Nat} (hcd : c < d)
    (hc : ord[c]? = some i) (hd : ord[d]? = some j) : less j i = false := by
  obtain ⟨h1, h2⟩ := List.getElem?_eq_some_iff.mp hc
  obtain ⟨h3, h4⟩ := List.getElem?_eq_some_iff.mp hd
  have := List.pairwise_iff_getElem.mp h.sorted c d h1 h3 hcd
  rwa [h2, h4] at this

theorem item_some {defs : List Def} {i : Nat} {d : Def} (h : defs[i]? = some d) : item defs i = d := by
  unfold item
  rw [h]
  rfl

/-- C126: building always succeeds. -/
theorem make_spec (defs : List Def) (hs : Small defs) : ∃ n e, make defs = some ⟨defs, n, e⟩ ∧ Ordered defs (lessName defs) n ∧ Ordered defs (lessEnm defs) e := by
  obtain ⟨n, h1, h2, h3⟩ := LS.Heap.C15_heapsort_sorts (name_weak hs) (List.range defs.length)
  obtain ⟨e, h4, h5, h6⟩ := LS.Heap.C15_heapsort_sorts (enm_weak defs) (List.range defs.length)
  refine ⟨n, e, ?_, ⟨h2, h3⟩, ⟨h5, h6⟩⟩
  unfold make orderByName orderByEnum
  rw [h1, h4]

theorem probeName_eq {E : E} {name : List Nat} {c i : Nat} {d : Def} (h1 : E.nameOrder[c]? = some i) (h2 : E.items[i]? = some d) (hn : name.length < 2 ^ 64)
    (hd : d.name.length < 2 ^ 64) : ∃ r, probeName E name c = some r ∧ Right name d.name r := by
  obtain ⟨r, h3, h4⟩ := LS.StrCmp.cmp_right name d.name hn hd
  refine ⟨r, ?_, h4⟩
  unfold probeName
  simp only [h1, h2, h3]

/-- C126: a name is found exactly when a definition has it, and the enumerator of such a definition is given. -/
theorem C126_find (defs : List Def) (hs : Small defs) (name : List Nat) (hn : name.length < 2 ^ 64) :
    ∃ E r, make defs = some E ∧ E.find name = some r ∧ (r = none ↔ ∀ d ∈ defs, d.name ≠ name) ∧ (∀ v, r = some v → ⟨v, name⟩ ∈ defs) := by
  obtain ⟨n, e, hm, ho, _⟩ := make_spec defs hs
  have pr : ∀ c, c < defs.length → ∃ i d r, n[c]? = some i ∧ defs[i]? = some d ∧ probeName ⟨defs, n, e⟩ name c = some r ∧ Right name d.name r := by
    intro c hc
    obtain ⟨i, d, h1, h2⟩ := ho.get hc
    obtain ⟨r, h3, h4⟩ := probeName_eq (E := ⟨defs, n, e⟩) h1 h2 hn (hs d (List.mem_of_getElem? h2))
    exact ⟨i, d, r, h1, h2, h3, h4⟩
  have hle : ∀ {c c' i i' : Nat} {d d' : Def}, c ≤ c' → n[c]? = some i → defs[i]? = some d → n[c']? = some i' → defs[i']? = some d' → ¬ Lex d'.name d.name := by
    intro c c' i i' d d' hcc h1 h2 h3 h4 hx
    rcases Nat.lt_or_eq_of_le hcc with hlt | rfl
    · have := ho.le hlt h1 h3
      rw [(lessName_iff hs i' i).mpr (by rw [item_some h2, item_some h4]; exact hx)] at this
      cases this
    · rw [h1] at h3
      injection h3 with h3
      subst h3
      rw [h2] at h4
      injection h4 with h4
      subst h4
      exact hx.irrefl rfl
  have hsp := search_spec (probeName ⟨defs, n, e⟩ name) defs.length
    (by
      intro c hc
      obtain ⟨i, d, r, _, _, h3, h4⟩ := pr c hc
      rw [h3]
      rcases h4 with ⟨rfl, _⟩ | ⟨rfl, _⟩ | ⟨rfl, _⟩ <;> simp)
    (by
      intro c c' hcc hc' hl
      obtain ⟨i, d, r, h1, h2, h3, h4⟩ := pr c (by omega)
      obtain ⟨i', d', r', h1', h2', h3', h4'⟩ := pr c' hc'
      rw [h3] at hl
      injection hl with hl
      subst hl
      have hx := (LS.StrCmp.right_iff h4).1.mp rfl
      have hn := hle hcc h1 h2 h1' h2'
      have : Lex name d'.name := by
        rcases lex_tri d.name d'.name with h | h | h
        · exact hx.trans h
        · rwa [← h]
        · exact absurd h hn
      rw [h3', (LS.StrCmp.right_iff h4').1.mpr this])
    (by
      intro c c' hcc hc' hl
      obtain ⟨i, d, r, h1, h2, h3, h4⟩ := pr c (by omega)
      obtain ⟨i', d', r', h1', h2', h3', h4'⟩ := pr c' hc'
      rw [h3'] at hl
      injection hl with hl
      subst hl
      have hx := (LS.StrCmp.right_iff h4').2.2.mp rfl
      have hn := hle hcc h1 h2 h1' h2'
      have : Lex d.name name := by
        rcases lex_tri d.name d'.name with h | h | h
        · exact h.trans hx
        · rwa [h]
        · exact absurd h hn
      rw [h3, (LS.StrCmp.right_iff h4).2.2.mpr this])
    defs.length 0 defs.length (Nat.le_refl _) (by omega) (fun c hc => absurd hc (by omega)) (fun c h1 h2 => absurd h2 (by omega))
  rcases hsp with ⟨c, h1, h2, h3⟩ | ⟨h1, h2⟩
  · obtain ⟨i, d, r, g1, g2, g3, g4⟩ := pr c h2
    rw [g3] at h3
    injection h3 with h3
    subst h3
    have hnm := (LS.StrCmp.right_iff g4).2.1.mp rfl
    refine ⟨⟨defs, n, e⟩, some d.enm, hm, ?_, ?_, ?_⟩
    · unfold E.find
      rw [h1]
      simp only [g1, g2, Option.map_some]
    · exact ⟨fun h => (by cases h), fun h => absurd hnm.symm (h d (List.mem_of_getElem? g2))⟩
    · intro v hv
      injection hv with hv
      subst hv
      rw [hnm]
      exact List.mem_of_getElem? g2
  · refine ⟨⟨defs, n, e⟩, none, hm, ?_, ?_, fun v hv => by cases hv⟩
    · unfold E.find
      rw [h1]
    · refine ⟨fun _ d hd hnm => ?_, fun _ => rfl⟩
      obtain ⟨i, hi, he⟩ := List.getElem_of_mem hd
      obtain ⟨c, hc, hci⟩ := ho.place hi
      obtain ⟨i', d', r, g1, g2, g3, g4⟩ := pr c hc
      rw [hci] at g1
      injection g1 with g1
      subst g1
      rw [List.getElem?_eq_getElem hi, he] at g2
      injection g2 with g2
      subst g2
      exact h2 c hc (by rw [g3, (LS.StrCmp.right_iff g4).2.1.mpr hnm.symm])

/-- C126: an enumerator gives the name of a definition with it, or an empty string when there is none. -/
theorem C126_name (defs : List Def) (hs : Small defs) (v : Int) :
    ∃ E s, make defs = some E ∧ E.byEnm v = some s ∧ (⟨v, s⟩ ∈ defs ∨ (s = [] ∧ ∀ d ∈ defs, d.enm ≠ v)) := by
  obtain ⟨n, e, hm, _, ho⟩ := make_spec defs hs
  have pr : ∀ c, c < defs.length → ∃ i d, e[c]? = some i ∧ defs[i]? = some d ∧ probeEnm ⟨defs, n, e⟩ v c = some (if v < d.enm then .less else if v > d.enm then .greater else .equal) := by
    intro c hc
    obtain ⟨i, d, h1, h2⟩ := ho.get hc
    refine ⟨i, d, h1, h2, ?_⟩
    unfold probeEnm
    simp only [h1, h2]
  have hle : ∀ {c c' i i' : Nat} {d d' : Def}, c ≤ c' → e[c]? = some i → defs[i]? = some d → e[c']? = some i' → defs[i']? = some d' → d.enm ≤ d'.enm := by
    intro c c' i i' d d' hcc h1 h2 h3 h4
    rcases Nat.lt_or_eq_of_le hcc with hlt | rfl
    · have := ho.le hlt h1 h3
      unfold lessEnm at this
      rw [item_some h2, item_some h4] at this
      have := of_decide_eq_false this
      omega
    · rw [h1] at h3
      injection h3 with h3
      subst h3
      rw [h2] at h4
      injection h4 with h4
      subst h4
      exact Int.le_refl _
  have rless : ∀ {a b : Int}, (some (if a < b then Cmp.less else if a > b then .greater else .equal) = some .less) ↔ a < b := by
    intro a b
    split
    · simp [*]
    · split <;> simp [*]
  have rgt : ∀ {a b : Int}, (some (if a < b then Cmp.less else if a > b then .greater else .equal) = some .greater) ↔ b < a := by
    intro a b
    split
    · simp; omega
    · split <;> simp <;> omega
  have req : ∀ {a b : Int}, (some (if a < b then Cmp.less else if a > b then .greater else .equal) = some .equal) ↔ a = b := by
    intro a b
    split
    · simp; omega
    · split <;> simp <;> omega
  have hsp := search_spec (probeEnm ⟨defs, n, e⟩ v) defs.length
    (by
      intro c hc
      obtain ⟨i, d, _, _, h3⟩ := pr c hc
      rw [h3, rless, req, rgt]
      omega)
    (by
      intro c c' hcc hc' hl
      obtain ⟨i, d, h1, h2, h3⟩ := pr c (by omega)
      obtain ⟨i', d', h1', h2', h3'⟩ := pr c' hc'
      have hn := hle hcc h1 h2 h1' h2'
      rw [h3, rless] at hl
      rw [h3', rless]
      omega)
    (by
      intro c c' hcc hc' hl
      obtain ⟨i, d, h1, h2, h3⟩ := pr c (by omega)
      obtain ⟨i', d', h1', h2', h3'⟩ := pr c' hc'
      have hn := hle hcc h1 h2 h1' h2'
      rw [h3', rgt] at hl
      rw [h3, rgt]
      omega)
    defs.length 0 defs.length (Nat.le_refl _) (by omega) (fun c hc => absurd hc (by omega)) (fun c h1 h2 => absurd h2 (by omega))
  rcases hsp with ⟨c, h1, h2, h3⟩ | ⟨h1, h2⟩
  · obtain ⟨i, d, g1, g2, g3⟩ := pr c h2
    rw [g3, req] at h3
    refine ⟨⟨defs, n, e⟩, d.name, hm, ?_, Or.inl ?_⟩
    · unfold E.byEnm
      rw [h1]
      simp only [g1, g2, Option.map_some]
    · rw [h3]
      exact List.mem_of_getElem? g2
  · refine ⟨⟨defs, n, e⟩, [], hm, ?_, Or.inr ⟨rfl, fun d hd hv => ?_⟩⟩
    · unfold E.byEnm
      rw [h1]
    · obtain ⟨i, hi, he⟩ := List.getElem_of_mem hd
      obtain ⟨c, hc, hci⟩ := ho.place hi
      obtain ⟨i', d', g1, g2, g3⟩ := pr c hc
      rw [hci] at g1
      injection g1 with g1
      subst g1
      rw [List.getElem?_eq_getElem hi, he] at g2
      injection g2 with g2
      subst g2
      exact h2 c hc (by rw [g3, req]; exact hv.symm)

/-- C126: with different names and different enumerators the two searches are inverse to each other. -/
theorem C126_inverse (defs : List Def) (hs : Small defs) (d : Def) (hd : d ∈ defs) (h1 : ∀ d' ∈ defs, d'.name = d.name → d' = d)
    (h2 : ∀ d' ∈ defs, d'.enm = d.enm → d' = d) : ∃ E, make defs = some E ∧ E.find d.name = some (some d.enm) ∧ E.byEnm d.enm = some d.name := by
  obtain ⟨E, r, hm, hf, hr1, hr2⟩ := C126_find defs hs d.name (hs d hd)
  obtain ⟨E', s, hm', hf', hr'⟩ := C126_name defs hs d.enm
  rw [hm] at hm'
  injection hm' with hm'
  subst hm'
  refine ⟨E, hm, ?_, ?_⟩
  · cases r with
    | none => exact absurd rfl (hr1.mp rfl d hd)
    | some v =>
      have e := h1 _ (hr2 v rfl) rfl
      rw [hf]
      have : v = d.enm := congrArg Def.enm e
      rw [this]
  · rcases hr' with h | ⟨_, h⟩
    · have e := h2 _ h rfl
      rw [hf']
      have : s = d.name := congrArg Def.name e
      rw [this]
    · exact absurd rfl (h d hd)

/-- C126: the list of names for messages. -/
theorem C126_toString (defs : List Def) (n e sep : List Nat) : (E.mk defs n e).toString sep = sep.intercalate (defs.map Def.name) := by
  cases defs with
  | nil => rfl
  | cons d ds =>
    show ds.foldl (fun s d => s ++ sep ++ d.name) d.name = _
    have key : ∀ (ds : List Def) (s : List Nat), ds.foldl (fun s d => s ++ sep ++ d.name) s = sep.intercalate (s :: ds.map Def.name) := by
      intro ds
      induction ds with
      | nil => intro s; simp [List.intercalate]
      | cons d ds ih =>
        intro s
        rw [List.foldl_cons, ih]
        cases ds with
        | nil => simp [List.intercalate]
        | cons d' ds => simp [List.intercalate, List.intersperse]
    rw [key]
    rfl

example : (make [⟨2, [99]⟩, ⟨1, [97, 98]⟩, ⟨3, [97]⟩]).bind (fun E => E.find [97]) = some (some 3) ∧
    (make [⟨2, [99]⟩, ⟨1, [97, 98]⟩, ⟨3, [97]⟩]).bind (fun E => E.byEnm 1) = some [97, 98] ∧
    (make [⟨2, [99]⟩, ⟨1, [97, 98]⟩, ⟨3, [97]⟩]).bind (fun E => E.find [98]) = some none := by decide

end LS.NamedEnum
