import Verif.Distrib
/-
C140: a message reaches every listener, also when listeners use the distributor.
-/
namespace LS.Distrib

def ids (ls : List (Nat × Nat)) : List Nat := ls.map (·.1)

/-- The items a message was delivered to, in the order of delivery. -/
def deliv (log : List (Nat × Nat)) (sid : Nat) : List Nat := (log.reverse.filter (fun p => p.1 == sid)).map (·.2)

/-- Those that are still listeners. -/
def still (ls log : List (Nat × Nat)) (sid : Nat) : List Nat := (deliv log sid).filter (fun i => (ids ls).contains i)

/-! ### Lists -/

theorem mem_deliv {log : List (Nat × Nat)} {sid i : Nat} : i ∈ deliv log sid ↔ (sid, i) ∈ log := by
  unfold deliv
  simp only [List.mem_map, List.mem_filter, List.mem_reverse]
  constructor
  · rintro ⟨p, ⟨hp, h⟩, rfl⟩
    have : p.1 = sid := by simpa using h
    subst this; exact hp
  · intro h
    exact ⟨(sid, i), ⟨h, by simp⟩, rfl⟩

theorem deliv_cons (log : List (Nat × Nat)) (t i sid : Nat) :
    deliv ((t, i) :: log) sid = if t = sid then deliv log sid ++ [i] else deliv log sid := by
  unfold deliv
  rw [List.reverse_cons, List.filter_append, List.map_append]
  by_cases h : t = sid
  · simp [h]
  · have : (t == sid) = false := by simp [h]
    simp [h]

theorem after_split (i w : Nat) (pre p : List (Nat × Nat)) (h : (ids (pre ++ (i, w) :: p)).Nodup) :
    after i (pre ++ (i, w) :: p) = p.head?.map (·.1) := by
  induction pre with
  | nil => simp [after]
  | cons x pre ih =>
    have hx : x.1 ≠ i := by
      intro e
      simp only [ids, List.cons_append, List.map_cons, List.nodup_cons] at h
      exact h.1 (by simp [e])
    simp only [List.cons_append, after, if_neg hx]
    apply ih
    simp only [ids, List.cons_append, List.map_cons, List.nodup_cons] at h ⊢
    exact h.2

theorem still_congr {ls ls' log : List (Nat × Nat)} {sid : Nat}
    (h : ∀ i, (sid, i) ∈ log → (i ∈ ids ls ↔ i ∈ ids ls')) : still ls log sid = still ls' log sid := by
  unfold still
  apply List.filter_congr
  intro i hi
  have := h i (mem_deliv.1 hi)
  rw [Bool.eq_iff_iff]
  simpa using this

theorem ids_filter (ls : List (Nat × Nat)) (r : Nat) :
    ids (ls.filter (fun y => !(y.1 == r))) = (ids ls).filter (fun i => !(i == r)) := by
  unfold ids
  rw [List.filter_map]
  rfl

theorem still_filter (ls log : List (Nat × Nat)) (sid r : Nat) :
    still (ls.filter (fun y => !(y.1 == r))) log sid = (still ls log sid).filter (fun i => !(i == r)) := by
  unfold still
  rw [List.filter_filter, ids_filter]
  apply List.filter_congr
  intro i _
  rw [Bool.eq_iff_iff]
  simp only [List.contains_iff_mem, List.mem_filter, Bool.and_eq_true]
  constructor
  · rintro ⟨h1, h2⟩; exact ⟨h2, h1⟩
  · rintro ⟨h1, h2⟩; exact ⟨h2, h1⟩

/-! ### The position of a message -/

/-- The listeners in front of the position that were there from the start have
the message, those behind it have not; the order is that of the list. -/
def Pos (ls log : List (Nat × Nat)) (g : Stage) : Prop :=
  ∃ pre post, ls = pre ++ post ∧ g.cur = post.head?.map (·.1) ∧
    (∀ x ∈ pre, x.1 ∈ g.start → (g.sid, x.1) ∈ log) ∧ (∀ x ∈ post, (g.sid, x.1) ∉ log) ∧
    (still ls log g.sid).Sublist (ids pre)

theorem pos_add {ls log : List (Nat × Nat)} {g : Stage} (n v : Nat) (hp : Pos ls log g)
    (hl : ∀ p ∈ log, p.2 < n) (hs : ∀ i ∈ g.start, i < n) (_hn : ∀ x ∈ ls, x.1 < n) : Pos (ls ++ [(n, v)]) log g := by
  obtain ⟨pre, post, e, hc, h1, h2, h3⟩ := hp
  have est : still (ls ++ [(n, v)]) log g.sid = still ls log g.sid := by
    apply still_congr
    intro i hi
    have := hl _ hi
    simp only [ids, List.map_append, List.mem_append, List.map_cons, List.map_nil, List.mem_singleton]
    constructor
    · rintro (h | h)
      · exact h
      · simp at this; omega
    · exact Or.inl
  cases post with
  | nil =>
    refine ⟨pre ++ [(n, v)], [], by rw [e]; simp, hc, ?_, by simp, ?_⟩
    · intro x hx hxs
      rcases List.mem_append.1 hx with hx | hx
      · exact h1 x hx hxs
      · simp at hx; subst hx; exact absurd (hs _ hxs) (by simp)
    · rw [est]
      exact h3.trans (by simp [ids])
  | cons c post =>
    refine ⟨pre, c :: post ++ [(n, v)], by rw [e]; simp, hc, h1, ?_, by rw [est]; exact h3⟩
    intro x hx
    rcases List.mem_append.1 hx with hx | hx
    · exact h2 x hx
    · simp at hx; subst hx
      intro hm
      exact absurd (hl _ hm) (by simp)

theorem pos_padd {ls log : List (Nat × Nat)} {g : Stage} (n v : Nat) (hp : Pos ls log g)
    (hl : ∀ p ∈ log, p.2 < n) (hs : ∀ i ∈ g.start, i < n) : Pos ((n, v) :: ls) log g := by
  obtain ⟨pre, post, e, hc, h1, h2, h3⟩ := hp
  have est : still ((n, v) :: ls) log g.sid = still ls log g.sid := by
    apply still_congr
    intro i hi
    have := hl _ hi
    simp only [ids, List.map_cons, List.mem_cons]
    constructor
    · rintro (h | h)
      · simp at this; omega
      · exact h
    · exact Or.inr
  refine ⟨(n, v) :: pre, post, by rw [e]; rfl, hc, ?_, h2, ?_⟩
  · intro x hx hxs
    rcases List.mem_cons.1 hx with rfl | hx
    · exact absurd (hs _ hxs) (by simp)
    · exact h1 x hx hxs
  · rw [est]
    exact h3.trans (by simp [ids])

theorem pos_remove {ls log : List (Nat × Nat)} {g : Stage} (r : Nat) (hp : Pos ls log g) (hn : (ids ls).Nodup) :
    Pos (ls.filter (fun y => !(y.1 == r))) log (g.skip ls r) := by
  obtain ⟨pre, post, e, hc, h1, h2, h3⟩ := hp
  have hsub : (still (ls.filter (fun y => !(y.1 == r))) log g.sid).Sublist (ids (pre.filter (fun y => !(y.1 == r)))) := by
    rw [still_filter, ids_filter]
    exact h3.filter _
  have hsid : (g.skip ls r).sid = g.sid ∧ (g.skip ls r).start = g.start := by
    unfold Stage.skip; split <;> exact ⟨rfl, rfl⟩
  have hcur : (g.skip ls r).cur = (post.filter (fun y => !(y.1 == r))).head?.map (·.1) := by
    cases post with
    | nil =>
      have : g.cur = none := hc
      simp [Stage.skip, this]
    | cons c p =>
      have hc' : g.cur = some c.1 := hc
      by_cases hr : c.1 = r
      · have e2 : p.filter (fun y => !(y.1 == r)) = p := by
          rw [List.filter_eq_self]
          intro y hy
          have : y.1 ≠ r := by
            intro hyr
            rw [e] at hn
            simp only [ids, List.map_append, List.map_cons] at hn
            have := (List.nodup_append.1 hn).2.1
            rw [List.nodup_cons] at this
            exact this.1 (by rw [hr, ← hyr]; exact List.mem_map_of_mem hy)
          simp [this]
        obtain ⟨c1, w⟩ := c
        simp only at hr hc'
        subst hr
        have ha : after c1 ls = p.head?.map (·.1) := by rw [e]; exact after_split c1 w pre p (e ▸ hn)
        simp only [Stage.skip, hc', if_true, ha, List.filter_cons, beq_self_eq_true, Bool.not_true, Bool.false_eq_true, if_false, e2]
      · have hb : (!(c.1 == r)) = true := by simp [hr]
        have hr' : ¬ (some c.1 = some r) := by simpa using hr
        simp only [Stage.skip, hc', if_neg hr', List.filter_cons, hb, if_true, List.head?_cons, Option.map_some]
  refine ⟨pre.filter (fun y => !(y.1 == r)), post.filter (fun y => !(y.1 == r)), by rw [e, List.filter_append], hcur, ?_, ?_, ?_⟩
  · rw [hsid.1, hsid.2]
    intro x hx
    exact h1 x (List.mem_filter.1 hx).1
  · rw [hsid.1]
    intro x hx
    exact h2 x (List.mem_filter.1 hx).1
  · rw [hsid.1]; exact hsub

theorem pos_advance {ls log : List (Nat × Nat)} {g : Stage} (i : Nat) (hp : Pos ls log g) (hn : (ids ls).Nodup)
    (hc : g.cur = some i) : Pos ls ((g.sid, i) :: log) { g with cur := after i ls, prev := some i } := by
  obtain ⟨pre, post, e, hcur, h1, h2, h3⟩ := hp
  cases post with
  | nil => rw [hc] at hcur; cases hcur
  | cons c p =>
    obtain ⟨c1, w⟩ := c
    have : c1 = i := by rw [hc] at hcur; simpa using hcur.symm
    subst this
    refine ⟨pre ++ [(c1, w)], p, by rw [e]; simp, ?_, ?_, ?_, ?_⟩
    · show after c1 ls = _
      rw [e]; exact after_split c1 w pre p (e ▸ hn)
    · intro x hx hxs
      rcases List.mem_append.1 hx with hx | hx
      · exact List.mem_cons_of_mem _ (h1 x hx hxs)
      · simp at hx; subst hx; simp
    · intro x hx hm
      rcases List.mem_cons.1 hm with hm | hm
      · have hx1 : x.1 = c1 := by
          have := congrArg Prod.snd hm
          simpa using this
        rw [e] at hn
        simp only [ids, List.map_append, List.map_cons] at hn
        have := (List.nodup_append.1 hn).2.1
        rw [List.nodup_cons] at this
        exact this.1 (by rw [← hx1]; exact List.mem_map_of_mem hx)
      · exact h2 x (List.mem_cons_of_mem _ hx) hm
    · show (still ls ((g.sid, c1) :: log) g.sid).Sublist _
      unfold still
      rw [deliv_cons, if_pos rfl, List.filter_append]
      have : (ids (pre ++ [(c1, w)])) = ids pre ++ [c1] := by simp [ids]
      rw [this]
      exact List.Sublist.append h3 List.filter_sublist

theorem pos_other {ls log : List (Nat × Nat)} {g : Stage} (t i : Nat) (hp : Pos ls log g) (hne : t ≠ g.sid) :
    Pos ls ((t, i) :: log) g := by
  obtain ⟨pre, post, e, hcur, h1, h2, h3⟩ := hp
  refine ⟨pre, post, e, hcur, ?_, ?_, ?_⟩
  · intro x hx hxs
    exact List.mem_cons_of_mem _ (h1 x hx hxs)
  · intro x hx hm
    rcases List.mem_cons.1 hm with hm | hm
    · exact hne (congrArg Prod.fst hm).symm
    · exact h2 x hx hm
  · unfold still
    rw [deliv_cons, if_neg hne]
    exact h3

theorem pos_new (ls log : List (Nat × Nat)) (g : Stage) (hc : g.cur = ls.head?.map (·.1)) (hl : ∀ p ∈ log, p.1 ≠ g.sid) :
    Pos ls log g := by
  refine ⟨[], ls, rfl, hc, by simp, ?_, ?_⟩
  · intro x _ hm
    exact hl _ hm rfl
  · have : deliv log g.sid = [] := by
      rw [List.eq_nil_iff_forall_not_mem]
      intro i hi
      exact hl _ (mem_deliv.1 hi) rfl
    simp [still, this]

/-! ### The invariant -/

/-- `F` are the calls that wait. -/
structure Inv (s : St) (F : List Frame) : Prop where
  nd : (ids s.ls).Nodup
  lt : ∀ x ∈ s.ls, x.1 < s.nid
  loglt : ∀ p ∈ s.log, p.1 < s.nsid ∧ p.2 < s.nid
  lognd : s.log.Nodup
  sids : (s.st.map (·.sid)).Nodup
  slt : ∀ g ∈ s.st, g.sid < s.nsid ∧ ∀ i ∈ g.start, i < s.nid
  pos : ∀ g ∈ s.st, Pos s.ls s.log g
  own : ∀ g ∈ s.st, Frame.send g.sid g.sel ∈ F
  fown : ∀ sid sel, Frame.send sid sel ∈ F → sid < s.nsid ∧ ∀ g ∈ s.st, g.sid = sid → g.sel = sel
  fin : ∀ d ∈ s.done, ∀ i ∈ d.2, i < s.nid ∧ (i ∈ ids s.ls → (d.1, i) ∈ s.log)
  ord : ∀ sid, (still s.ls s.log sid).Sublist (ids s.ls)
  all : ∀ sid < s.nsid, sid ∈ s.done.map (·.1) ∨ sid ∈ s.canc ∨ sid ∈ s.st.map (·.sid)
  clt : ∀ c ∈ s.canc, c < s.nsid

theorem inv_new : Inv new [] := by
  refine ⟨by simp [new, ids], by simp [new], by simp [new], by simp [new], by simp [new], by simp [new], by simp [new], by simp [new], by simp, by simp [new], ?_, by simp [new], by simp [new]⟩
  intro sid
  simp [new, still, deliv]

theorem live_iff (s : St) (i : Nat) : live s i = true ↔ i ∈ ids s.ls := by
  simp [live, ids]

/-- Stages are only taken away. -/
theorem inv_sub {s s' : St} {F : List Frame} (h : Inv s F) (hls : s'.ls = s.ls) (hnid : s'.nid = s.nid) (hlog : s'.log = s.log)
    (hns : s'.nsid = s.nsid) (hst : s'.st.Sublist s.st)
    (hdone : ∀ d ∈ s'.done, ∀ i ∈ d.2, i < s.nid ∧ (i ∈ ids s.ls → (d.1, i) ∈ s.log))
    (hall : ∀ sid < s.nsid, sid ∈ s'.done.map (·.1) ∨ sid ∈ s'.canc ∨ sid ∈ s'.st.map (·.sid))
    (hcanc : ∀ c ∈ s'.canc, c < s.nsid) : Inv s' F := by
  refine ⟨by rw [hls]; exact h.nd, by rw [hls, hnid]; exact h.lt, by rw [hlog, hns, hnid]; exact h.loglt, by rw [hlog]; exact h.lognd,
    h.sids.sublist (hst.map _), ?_, ?_, ?_, ?_, ?_, ?_, ?_, by rw [hns]; exact hcanc⟩
  · rw [hns, hnid]; exact fun g hg => h.slt g (hst.subset hg)
  · rw [hls, hlog]; exact fun g hg => h.pos g (hst.subset hg)
  · exact fun g hg => h.own g (hst.subset hg)
  · rw [hns]; exact fun sid sel hf => ⟨(h.fown sid sel hf).1, fun g hg => (h.fown sid sel hf).2 g (hst.subset hg)⟩
  · rw [hls, hlog, hnid]; exact hdone
  · rw [hls, hlog]; exact h.ord
  · rw [hns]; exact hall

theorem inv_erase {s : St} {F : List Frame} (h : Inv s F) (g : Stage) (hg : g ∈ s.st) (hc : g.cur = none) :
    Inv (eraseStage s g) F := by
  refine inv_sub h rfl rfl rfl rfl List.filter_sublist ?_ ?_ h.clt
  · intro d hd i hi
    rcases List.mem_cons.1 hd with rfl | hd
    · refine ⟨(h.slt g hg).2 i hi, ?_⟩
      intro hm
      obtain ⟨pre, post, e, hcur, h1, -, -⟩ := h.pos g hg
      have hp : post = [] := by
        cases post with
        | nil => rfl
        | cons c p => rw [hc] at hcur; cases hcur
      rw [hp, List.append_nil] at e
      obtain ⟨x, hx, hxi⟩ := List.mem_map.1 hm
      have := h1 x (e ▸ hx) (by rw [hxi]; exact hi)
      rwa [hxi] at this
    · exact h.fin d hd i hi
  · intro sid hs
    rcases h.all sid hs with h1 | h1 | h1
    · left; simp only [eraseStage, List.map_cons, List.mem_cons]; exact Or.inr h1
    · right; left; exact h1
    · by_cases he : sid = g.sid
      · left; simp [eraseStage, he]
      · right; right
        obtain ⟨x, hx, hxi⟩ := List.mem_map.1 h1
        refine List.mem_map.2 ⟨x, List.mem_filter.2 ⟨hx, ?_⟩, hxi⟩
        have : x.sid ≠ g.sid := by rw [hxi]; exact he
        simp [this]

theorem inv_advance {s : St} {F : List Frame} (h : Inv s F) (g : Stage) (i : Nat) (hg : g ∈ s.st) (hc : g.cur = some i)
    (hl : i ∈ ids s.ls) : Inv (advance s g i) F := by
  have huniq : ∀ k ∈ s.st, k.sid = g.sid → k = g := by
    have := h.sids
    intro k hk e
    exact inj_of_nodup this hk hg e
  have hin : i < s.nid := by
    obtain ⟨x, hx, hxi⟩ := List.mem_map.1 hl
    have := h.lt x hx
    rw [hxi] at this; exact this
  have hnot : (g.sid, i) ∉ s.log := by
    obtain ⟨pre, post, e, hcur, h1, h2, -⟩ := h.pos g hg
    cases post with
    | nil => rw [hc] at hcur; cases hcur
    | cons c p =>
      have : c.1 = i := by rw [hc] at hcur; simpa using hcur.symm
      rw [← this]; exact h2 c (by simp)
  have hsid : (advance s g i).st.map (·.sid) = s.st.map (·.sid) := by
    simp only [advance, List.map_map]
    apply List.map_congr_left
    intro k _
    simp only [Function.comp]
    split <;> rfl
  have hmem : ∀ k' ∈ (advance s g i).st, ∃ k ∈ s.st, k'.sid = k.sid ∧ k'.sel = k.sel ∧ k'.start = k.start ∧ Pos s.ls ((g.sid, i) :: s.log) k' := by
    intro k' hk'
    obtain ⟨k, hk, rfl⟩ := List.mem_map.1 hk'
    by_cases e : k.sid = g.sid
    · have := huniq k hk e
      subst this
      refine ⟨k, hk, ?_⟩
      rw [if_pos rfl]
      exact ⟨rfl, rfl, rfl, pos_advance i (h.pos k hk) h.nd hc⟩
    · refine ⟨k, hk, ?_⟩
      rw [if_neg e]
      exact ⟨rfl, rfl, rfl, pos_other _ _ (h.pos k hk) (fun e' => e e'.symm)⟩
  refine ⟨h.nd, h.lt, ?_, ?_, ?_, ?_, ?_, ?_, ?_, ?_, ?_, ?_, h.clt⟩
  · intro p hp
    rcases List.mem_cons.1 hp with rfl | hp
    · exact ⟨(h.slt g hg).1, hin⟩
    · exact h.loglt p hp
  · exact List.nodup_cons.2 ⟨hnot, h.lognd⟩
  · rw [hsid]; exact h.sids
  · intro k' hk'
    obtain ⟨k, hk, e1, e2, e3, -⟩ := hmem k' hk'
    rw [e1, e3]; exact h.slt k hk
  · intro k' hk'
    obtain ⟨k, hk, e1, e2, e3, hp⟩ := hmem k' hk'
    exact hp
  · intro k' hk'
    obtain ⟨k, hk, e1, e2, e3, -⟩ := hmem k' hk'
    rw [e1, e2]; exact h.own k hk
  · intro sid sel hf
    refine ⟨(h.fown sid sel hf).1, ?_⟩
    intro k' hk' e
    obtain ⟨k, hk, e1, e2, e3, -⟩ := hmem k' hk'
    rw [e2]; exact (h.fown sid sel hf).2 k hk (e1 ▸ e)
  · intro d hd j hj
    exact ⟨(h.fin d hd j hj).1, fun hm => List.mem_cons_of_mem _ ((h.fin d hd j hj).2 hm)⟩
  · intro sid
    by_cases e : g.sid = sid
    · subst e
      obtain ⟨k', hk', e1⟩ : ∃ k' ∈ (advance s g i).st, k'.sid = g.sid := by
        have : g.sid ∈ (advance s g i).st.map (·.sid) := by rw [hsid]; exact List.mem_map_of_mem hg
        obtain ⟨k', hk', e⟩ := List.mem_map.1 this
        exact ⟨k', hk', e⟩
      obtain ⟨k, hk, -, -, -, hp⟩ := hmem k' hk'
      obtain ⟨pre, post, e, -, -, -, h3⟩ := hp
      rw [e1] at h3
      refine h3.trans ?_
      show (ids pre).Sublist (ids s.ls)
      rw [e]; simp [ids]
    · have : still s.ls ((g.sid, i) :: s.log) sid = still s.ls s.log sid := by
        unfold still; rw [deliv_cons, if_neg e]
      show (still s.ls ((g.sid, i) :: s.log) sid).Sublist _
      rw [this]; exact h.ord sid
  · intro sid hs
    rw [hsid]
    exact h.all sid hs
where
  inj_of_nodup {l : List Stage} {a b : Stage} (h : (l.map (·.sid)).Nodup) (ha : a ∈ l) (hb : b ∈ l) (e : a.sid = b.sid) : a = b := by
    induction l with
    | nil => cases ha
    | cons c l ih =>
      simp only [List.map_cons, List.nodup_cons] at h
      rcases List.mem_cons.1 ha with ha1 | ha1
      · rcases List.mem_cons.1 hb with hb1 | hb1
        · rw [ha1, hb1]
        · exact absurd (List.mem_map.2 ⟨b, hb1, by rw [← e, ha1]⟩) h.1
      · rcases List.mem_cons.1 hb with hb1 | hb1
        · exact absurd (List.mem_map.2 ⟨a, ha1, by rw [e, hb1]⟩) h.1
        · exact ih h.2 ha1 hb1

theorem inv_stop {s : St} {F : List Frame} (h : Inv s F) (sel : Nat) : Inv (stop s sel) F := by
  refine inv_sub h rfl rfl rfl rfl List.filter_sublist h.fin ?_ ?_
  rotate_left
  · intro c hc
    rcases List.mem_append.1 hc with hc | hc
    · exact h.clt c hc
    · obtain ⟨g, hg, rfl⟩ := List.mem_map.1 hc
      exact (h.slt g (List.mem_filter.1 hg).1).1
  intro sid hs
  rcases h.all sid hs with h1 | h1 | h1
  · left; exact h1
  · right; left; exact List.mem_append_left _ h1
  · obtain ⟨x, hx, hxi⟩ := List.mem_map.1 h1
    by_cases he : x.sel = sel
    · right; left
      refine List.mem_append_right _ (List.mem_map.2 ⟨x, List.mem_filter.2 ⟨hx, by simp [he]⟩, hxi⟩)
    · right; right
      exact List.mem_map.2 ⟨x, List.mem_filter.2 ⟨hx, by simp [he]⟩, hxi⟩

theorem inv_removeAll {s : St} {F : List Frame} (h : Inv s F) : Inv (removeAll s) F := by
  refine ⟨by simp [removeAll, ids], by simp [removeAll], h.loglt, h.lognd, by simp [removeAll], by simp [removeAll], by simp [removeAll], by simp [removeAll], ?_, ?_, ?_, ?_, ?_⟩
  rotate_left 4
  · intro c hc
    rcases List.mem_append.1 hc with hc | hc
    · exact h.clt c hc
    · obtain ⟨g, hg, rfl⟩ := List.mem_map.1 hc
      exact (h.slt g hg).1
  · intro sid sel hf
    exact ⟨(h.fown sid sel hf).1, by simp [removeAll]⟩
  · intro d hd i hi
    exact ⟨(h.fin d hd i hi).1, by simp [removeAll, ids]⟩
  · intro sid
    simp [removeAll, still, ids]
  · intro sid hs
    rcases h.all sid hs with h1 | h1 | h1
    · left; exact h1
    · right; left; exact List.mem_append_left _ h1
    · right; left; exact List.mem_append_right _ h1

theorem inv_remove {s : St} {F : List Frame} (h : Inv s F) (v : Nat) : Inv (remove s v) F := by
  unfold remove
  split
  · exact h
  · rename_i x _
    have hmem : ∀ k' ∈ s.st.map (Stage.skip s.ls x.1), ∃ k ∈ s.st, k' = k.skip s.ls x.1 ∧ k'.sid = k.sid ∧ k'.sel = k.sel ∧ k'.start = k.start := by
      intro k' hk'
      obtain ⟨k, hk, rfl⟩ := List.mem_map.1 hk'
      refine ⟨k, hk, rfl, ?_⟩
      unfold Stage.skip; split <;> exact ⟨rfl, rfl, rfl⟩
    have hsid : (s.st.map (Stage.skip s.ls x.1)).map (·.sid) = s.st.map (·.sid) := by
      rw [List.map_map]
      apply List.map_congr_left
      intro k _
      simp only [Function.comp, Stage.skip]
      split <;> rfl
    have hids : ∀ i, i ∈ ids (s.ls.filter (fun y => !(y.1 == x.1))) → i ∈ ids s.ls := by
      intro i hi
      rw [ids_filter] at hi
      exact (List.mem_filter.1 hi).1
    refine ⟨?_, ?_, h.loglt, h.lognd, ?_, ?_, ?_, ?_, ?_, ?_, ?_, ?_, h.clt⟩
    · show (ids (s.ls.filter (fun y => !(y.1 == x.1)))).Nodup
      rw [ids_filter]; exact h.nd.sublist List.filter_sublist
    · intro y hy
      exact h.lt y (List.mem_filter.1 hy).1
    · show ((s.st.map (Stage.skip s.ls x.1)).map (·.sid)).Nodup
      rw [hsid]; exact h.sids
    · intro k' hk'
      obtain ⟨k, hk, -, e1, e2, e3⟩ := hmem k' hk'
      rw [e1, e3]; exact h.slt k hk
    · intro k' hk'
      obtain ⟨k, hk, rfl, -⟩ := hmem k' hk'
      exact pos_remove x.1 (h.pos k hk) h.nd
    · intro k' hk'
      obtain ⟨k, hk, -, e1, e2, e3⟩ := hmem k' hk'
      rw [e1, e2]; exact h.own k hk
    · intro sid sel hf
      refine ⟨(h.fown sid sel hf).1, ?_⟩
      intro k' hk' e
      obtain ⟨k, hk, -, e1, e2, e3⟩ := hmem k' hk'
      rw [e2]; exact (h.fown sid sel hf).2 k hk (e1 ▸ e)
    · intro d hd i hi
      exact ⟨(h.fin d hd i hi).1, fun hm => (h.fin d hd i hi).2 (hids i hm)⟩
    · intro sid
      show (still (s.ls.filter (fun y => !(y.1 == x.1))) s.log sid).Sublist (ids (s.ls.filter (fun y => !(y.1 == x.1))))
      rw [still_filter, ids_filter]
      exact (h.ord sid).filter _
    · intro sid hs
      show _ ∨ _ ∨ sid ∈ (s.st.map (Stage.skip s.ls x.1)).map (·.sid)
      rw [hsid]; exact h.all sid hs

theorem inv_grow {s s' : St} {F : List Frame} (h : Inv s F) (v : Nat) (hls : s'.ls = s.ls ++ [(s.nid, v)] ∨ s'.ls = (s.nid, v) :: s.ls)
    (he : s' = { s with ls := s'.ls, nid := s.nid + 1 }) : Inv s' F := by
  have hfr : s.nid ∉ ids s.ls := by
    intro hm
    obtain ⟨x, hx, e⟩ := List.mem_map.1 hm
    have := h.lt x hx
    omega
  have hids : ∀ i, i ∈ ids s'.ls ↔ i ∈ ids s.ls ∨ i = s.nid := by
    intro i
    rcases hls with e | e
    · rw [e]; simp [ids]
    · rw [e]; simp only [ids, List.map_cons, List.mem_cons]
      constructor
      · rintro (h | h)
        · exact Or.inr h
        · exact Or.inl h
      · rintro (h | h)
        · exact Or.inr h
        · exact Or.inl h
  have hlog : s'.log = s.log := by rw [he]
  have hst : s'.st = s.st := by rw [he]
  have hnid : s'.nid = s.nid + 1 := by rw [he]
  have hnsid : s'.nsid = s.nsid := by rw [he]
  have hdone : s'.done = s.done := by rw [he]
  have hcanc : s'.canc = s.canc := by rw [he]
  have hstill : ∀ sid, still s'.ls s.log sid = still s.ls s.log sid := by
    intro sid
    apply still_congr
    intro i hi
    have := (h.loglt _ hi).2
    rw [hids]
    constructor
    · rintro (h | h)
      · exact h
      · simp at this; omega
    · exact Or.inl
  refine ⟨?_, ?_, ?_, by rw [hlog]; exact h.lognd, by rw [hst]; exact h.sids, ?_, ?_, by rw [hst]; exact h.own, ?_, ?_, ?_, ?_, by rw [hcanc, hnsid]; exact h.clt⟩
  · rcases hls with e | e
    · rw [e]; simp only [ids, List.map_append, List.map_cons, List.map_nil]
      rw [List.nodup_append]
      refine ⟨h.nd, by simp, ?_⟩
      intro a ha b hb
      simp at hb; subst hb
      intro e; subst e; exact hfr ha
    · rw [e]; exact List.nodup_cons.2 ⟨hfr, h.nd⟩
  · intro x hx
    have : x.1 ∈ ids s'.ls := List.mem_map_of_mem hx
    rw [hids] at this
    rw [hnid]
    rcases this with h1 | h1
    · obtain ⟨y, hy, e⟩ := List.mem_map.1 h1
      have := h.lt y hy
      omega
    · omega
  · rw [hlog, hnsid, hnid]
    intro p hp
    have := h.loglt p hp
    omega
  · rw [hst, hnsid, hnid]
    intro g hg
    refine ⟨(h.slt g hg).1, fun i hi => ?_⟩
    have := (h.slt g hg).2 i hi
    omega
  · rw [hst, hlog]
    intro g hg
    rcases hls with e | e
    · rw [e]; exact pos_add s.nid v (h.pos g hg) (fun p hp => (h.loglt p hp).2) (h.slt g hg).2 h.lt
    · rw [e]; exact pos_padd s.nid v (h.pos g hg) (fun p hp => (h.loglt p hp).2) (h.slt g hg).2
  · rw [hst, hnsid]; exact h.fown
  · rw [hdone, hlog, hnid]
    intro d hd i hi
    have := (h.fin d hd i hi)
    refine ⟨by omega, fun hm => this.2 ?_⟩
    rw [hids] at hm
    rcases hm with hm | hm
    · exact hm
    · omega
  · intro sid
    rw [hlog, hstill]
    refine (h.ord sid).trans ?_
    rcases hls with e | e
    · rw [e]; simp [ids]
    · rw [e]; simp [ids]
  · rw [hdone, hcanc, hst, hnsid]; exact h.all

theorem inv_push {s : St} {F : List Frame} (h : Inv s F) (sender : Option Nat) (sel : Nat) :
    Inv (pushStage s sender sel) (.send s.nsid sel :: F) := by
  have hmem : ∀ k ∈ (pushStage s sender sel).st, k ∈ s.st ∨ k = ⟨s.nsid, sel, s.ls.head?.map (·.1), none, sender, s.ls.map (·.1)⟩ := by
    intro k hk
    rcases List.mem_append.1 hk with hk | hk
    · exact Or.inl hk
    · exact Or.inr (by simpa using hk)
  refine ⟨h.nd, h.lt, ?_, h.lognd, ?_, ?_, ?_, ?_, ?_, h.fin, h.ord, ?_, fun c hc => Nat.lt_succ_of_lt (h.clt c hc)⟩
  · intro p hp
    have := h.loglt p hp
    exact ⟨Nat.lt_succ_of_lt this.1, this.2⟩
  · simp only [pushStage, List.map_append, List.map_cons, List.map_nil]
    rw [List.nodup_append]
    refine ⟨h.sids, by simp, ?_⟩
    intro a ha b hb
    simp at hb; subst hb
    obtain ⟨k, hk, rfl⟩ := List.mem_map.1 ha
    have := (h.slt k hk).1
    omega
  · intro k hk
    rcases hmem k hk with hk | rfl
    · exact ⟨Nat.lt_succ_of_lt (h.slt k hk).1, (h.slt k hk).2⟩
    · refine ⟨Nat.lt_succ_self _, ?_⟩
      intro i hi
      obtain ⟨x, hx, rfl⟩ := List.mem_map.1 hi
      exact h.lt x hx
  · intro k hk
    rcases hmem k hk with hk | rfl
    · exact h.pos k hk
    · refine pos_new _ _ _ rfl ?_
      intro p hp e
      have := (h.loglt p hp).1
      rw [e] at this
      exact Nat.lt_irrefl _ this
  · intro k hk
    rcases hmem k hk with hk | rfl
    · exact List.mem_cons_of_mem _ (h.own k hk)
    · exact List.mem_cons_self
  · intro sid sl hf
    rcases List.mem_cons.1 hf with e | hf
    · cases e
      refine ⟨Nat.lt_succ_self _, ?_⟩
      intro k hk e
      rcases hmem k hk with hk | rfl
      · have := (h.slt k hk).1; omega
      · rfl
    · refine ⟨Nat.lt_succ_of_lt (h.fown sid sl hf).1, ?_⟩
      intro k hk e
      rcases hmem k hk with hk | rfl
      · exact (h.fown sid sl hf).2 k hk e
      · have h1 : s.nsid = sid := e
        have := (h.fown sid sl hf).1; omega
  · intro sid hs
    by_cases e : sid = s.nsid
    · right; right; simp [pushStage, e]
    · have : sid < s.nsid := by
        have : sid < s.nsid + 1 := hs
        omega
      rcases h.all sid this with h1 | h1 | h1
      · exact Or.inl h1
      · exact Or.inr (Or.inl h1)
      · right; right; simp only [pushStage, List.map_append, List.mem_append]; exact Or.inl h1

/-! ### The loop -/

theorem find_sel {s : St} {sel : Nat} {g : Stage} (h : s.st.find? (fun g => g.sel == sel) = some g) : g ∈ s.st ∧ g.sel = sel :=
  ⟨List.mem_of_find?_eq_some h, by have := List.find?_some h; simpa using this⟩

/-- The message `sid` is kept with its first listeners, or was stopped. -/
def Kept (sid : Nat) (S : List Nat) (s : St) : Prop :=
  (∃ g ∈ s.st, g.sid = sid ∧ g.start = S) ∨ (sid, S) ∈ s.done ∨ sid ∈ s.canc

theorem kept_erase {s : St} {F : List Frame} (h : Inv s F) (g : Stage) (hg : g ∈ s.st) (sid : Nat) (S : List Nat)
    (hk : Kept sid S s) : Kept sid S (eraseStage s g) := by
  rcases hk with ⟨k, hk, e1, e2⟩ | hk | hk
  · by_cases e : k.sid = g.sid
    · have := inv_advance.inj_of_nodup h.sids hk hg e
      subst this
      right; left
      simp [eraseStage, e1, e2]
    · left
      exact ⟨k, List.mem_filter.2 ⟨hk, by simp [e]⟩, e1, e2⟩
  · right; left; exact List.mem_cons_of_mem _ hk
  · right; right; exact hk

theorem kept_map {s t : St} (f : Stage → Stage) (hf : ∀ g ∈ s.st, (f g).sid = g.sid ∧ (f g).start = g.start) (hst : t.st = s.st.map f)
    (hd : t.done = s.done) (hc : t.canc = s.canc) (sid : Nat) (S : List Nat) (hk : Kept sid S s) : Kept sid S t := by
  rcases hk with ⟨k, hk, e1, e2⟩ | hk | hk
  · left
    refine ⟨f k, by rw [hst]; exact List.mem_map_of_mem hk, ?_, ?_⟩
    · rw [(hf k hk).1, e1]
    · rw [(hf k hk).2, e2]
  · right; left; rw [hd]; exact hk
  · right; right; rw [hc]; exact hk

theorem kept_advance {s : St} (g : Stage) (i sid : Nat) (S : List Nat) (hk : Kept sid S s) : Kept sid S (advance s g i) := by
  refine kept_map (s := s) (t := advance s g i) (fun h => if h.sid = g.sid then { h with cur := after i s.ls, prev := some i } else h) ?_ rfl rfl rfl sid S hk
  intro h _
  by_cases e : h.sid = g.sid
  · simp [e]
  · simp [e]

theorem kept_stop {s : St} (sel sid : Nat) (S : List Nat) (hk : Kept sid S s) : Kept sid S (stop s sel) := by
  rcases hk with ⟨k, hk, e1, e2⟩ | hk | hk
  · by_cases e : k.sel = sel
    · right; right
      exact List.mem_append_right _ (List.mem_map.2 ⟨k, List.mem_filter.2 ⟨hk, by simp [e]⟩, e1⟩)
    · left
      exact ⟨k, List.mem_filter.2 ⟨hk, by simp [e]⟩, e1, e2⟩
  · right; left; exact hk
  · right; right; exact List.mem_append_left _ hk

/-- What the loop leaves as it was. -/
structure Same (s t : St) : Prop where
  ls : t.ls = s.ls
  fr : t.fr = s.fr
  nid : t.nid = s.nid
  nsid : t.nsid = s.nsid
  canc : t.canc = s.canc
  kept : ∀ sid S, Kept sid S s → Kept sid S t

theorem Same.trans {a b c : St} (h : Same a b) (k : Same b c) : Same a c :=
  ⟨k.ls.trans h.ls, k.fr.trans h.fr, k.nid.trans h.nid, k.nsid.trans h.nsid, k.canc.trans h.canc, fun sid S hk => k.kept sid S (h.kept sid S hk)⟩

theorem same_erase {s : St} {F : List Frame} (h : Inv s F) (g : Stage) (hg : g ∈ s.st) : Same s (eraseStage s g) :=
  ⟨rfl, rfl, rfl, rfl, rfl, kept_erase h g hg⟩

theorem same_refl (s : St) : Same s s := ⟨rfl, rfl, rfl, rfl, rfl, fun _ _ h => h⟩

theorem erase_lt {s : St} {g : Stage} (hg : g ∈ s.st) : (eraseStage s g).st.length < s.st.length := by
  simp only [eraseStage]
  apply Nat.lt_of_le_of_ne (List.length_filter_le _ _)
  intro e
  have := List.length_filter_eq_length_iff.1 e g hg
  simp at this

theorem loop_spec (sel : Nat) (F : List Frame) : ∀ (n : Nat) (s : St), Inv s F → s.st.length < n →
    (∃ t, loop sel n s = .idle t ∧ Inv t F ∧ Same s t ∧ t.log = s.log ∧ ∀ g ∈ t.st, g.sel ≠ sel) ∨
    (∃ t g i, loop sel n s = .call (advance t g i) ∧ Inv t F ∧ Same s t ∧ t.log = s.log ∧ g ∈ t.st ∧ g.sel = sel ∧ g.cur = some i ∧ i ∈ ids t.ls) := by
  intro n
  induction n with
  | zero => intro s _ h; omega
  | succ n ih =>
    intro s h hn
    unfold loop
    cases hf : s.st.find? (fun g => g.sel == sel) with
    | none =>
      left
      refine ⟨s, rfl, h, same_refl s, rfl, ?_⟩
      intro g hg
      have := List.find?_eq_none.1 hf g hg
      simpa using this
    | some g =>
      obtain ⟨hg, hsel⟩ := find_sel hf
      simp only []
      cases hc : g.cur with
      | none =>
        simp only []
        have hlt := erase_lt hg
        rcases ih (eraseStage s g) (inv_erase h g hg hc) (by omega) with ⟨t, e, hi, hs, hl, hr⟩ | ⟨t, g', i, e, hi, hs, hl, hr⟩
        · exact Or.inl ⟨t, e, hi, (same_erase h g hg).trans hs, hl, hr⟩
        · exact Or.inr ⟨t, g', i, e, hi, (same_erase h g hg).trans hs, hl, hr⟩
      | some i =>
        simp only []
        have hi : i ∈ ids s.ls := by
          obtain ⟨pre, post, e, hcur, -⟩ := h.pos g hg
          cases post with
          | nil => rw [hc] at hcur; cases hcur
          | cons c p =>
            have : c.1 = i := by rw [hc] at hcur; simpa using hcur.symm
            rw [e, ← this]; simp [ids]
        rw [if_pos ((live_iff s i).2 hi)]
        exact Or.inr ⟨s, g, i, rfl, h, same_refl s, rfl, hg, hsel, hc, hi⟩

/-! ### Steps -/

theorem inv_fr {s : St} {F : List Frame} (h : Inv s F) (X : List Frame) : Inv { s with fr := X } F :=
  ⟨h.nd, h.lt, h.loglt, h.lognd, h.sids, h.slt, h.pos, h.own, h.fown, h.fin, h.ord, h.all, h.clt⟩

theorem inv_exit {s : St} {F : List Frame} (h : Inv s F) (X : List Frame) (Y : List Nat) (cur : Option Nat) (b : Bool) :
    Inv { s with fr := X, xlog := Y } (.exit cur b :: F) :=
  ⟨h.nd, h.lt, h.loglt, h.lognd, h.sids, h.slt, h.pos, fun g hg => List.mem_cons_of_mem _ (h.own g hg),
    fun sid sel hf => h.fown sid sel (by simpa using hf), h.fin, h.ord, h.all, h.clt⟩

theorem inv_frame {s : St} {F : List Frame} (h : Inv s F) (sel : Nat) : Inv s (.fin sel :: F) :=
  ⟨h.nd, h.lt, h.loglt, h.lognd, h.sids, h.slt, h.pos, fun g hg => List.mem_cons_of_mem _ (h.own g hg),
    fun sid sel hf => h.fown sid sel (by simpa using hf), h.fin, h.ord, h.all, h.clt⟩

theorem inv_pop {s : St} {f : Frame} {F : List Frame} (h : Inv s (f :: F)) (hf : ∀ g ∈ s.st, f ≠ .send g.sid g.sel) : Inv s F :=
  ⟨h.nd, h.lt, h.loglt, h.lognd, h.sids, h.slt, h.pos,
    fun g hg => by
      rcases List.mem_cons.1 (h.own g hg) with e | e
      · exact absurd e.symm (hf g hg)
      · exact e,
    fun sid sel hm => h.fown sid sel (List.mem_cons_of_mem _ hm), h.fin, h.ord, h.all, h.clt⟩

/-- What a step may deliver. -/
def Fresh (s t : St) : Prop := ∀ p ∈ t.log, p ∈ s.log ∨ p.2 ∈ ids s.ls

theorem fresh_advance {s t : St} (g : Stage) (i : Nat) (hl : t.log = s.log) (hls : t.ls = s.ls) (hi : i ∈ ids t.ls) : Fresh s (advance t g i) := by
  intro p hp
  rcases List.mem_cons.1 hp with rfl | hp
  · right; rw [← hls]; exact hi
  · left; rw [← hl]; exact hp

structure Good (s : St) (out : Out) : Prop where
  inv : ∀ t, out = .ok t → Inv t t.fr
  kept : ∀ t, out = .ok t → ∀ sid S, Kept sid S s → Kept sid S t
  fresh : ∀ t, out = .ok t → Fresh s t

theorem good_ok {s t : St} (h1 : Inv t t.fr) (h2 : ∀ sid S, Kept sid S s → Kept sid S t) (h3 : Fresh s t) : Good s (.ok t) :=
  ⟨fun _ e => by cases e; exact h1, fun _ e => by cases e; exact h2, fun _ e => by cases e; exact h3⟩

theorem good_bad {s : St} {o : Out} (h : ∀ t, o ≠ .ok t) : Good s o :=
  ⟨fun t e => absurd e (h t), fun t e => absurd e (h t), fun t e => absurd e (h t)⟩

theorem cycle_good {s : St} (h : Inv s s.fr) (cur : Option Nat) (b : Bool) : Good s (cycle s cur b) := by
  unfold cycle
  cases cur with
  | none => exact good_ok h (fun _ _ h => h) (fun _ hp => Or.inl hp)
  | some i =>
    simp only []
    split
    · exact good_ok (inv_exit h _ _ _ _) (fun _ _ h => h) (fun _ hp => Or.inl hp)
    · exact good_bad (fun _ e => by cases e)

theorem idle_pop {t : St} {sid sel : Nat} {F : List Frame} (h : Inv t (.send sid sel :: F)) (hn : ∀ g ∈ t.st, g.sel ≠ sel) :
    t.st.any (fun g => g.sid == sid) = false ∧ Inv t F := by
  have key : ∀ g ∈ t.st, g.sid ≠ sid := by
    intro g hg e
    exact hn g hg ((h.fown sid sel List.mem_cons_self).2 g hg e)
  constructor
  · cases hc : t.st.any (fun g => g.sid == sid) with
    | false => rfl
    | true =>
      obtain ⟨g, hg, e⟩ := List.any_eq_true.1 hc
      exact absurd (by simpa using e) (key g hg)
  · refine inv_pop h ?_
    intro g hg e
    injection e with e1 e2
    exact hn g hg e2.symm

theorem resume_good {s : St} (f : Frame) (h : Inv s (f :: s.fr)) :
    Good s (resume s f) ∧ (resume s f = .ub → ∃ i b, f = .exit (some i) b ∧ i ∉ ids s.ls) ∧
    (∀ t, resume s f = .ok t → t.canc = s.canc) := by
  cases f with
  | send sid sel =>
    unfold resume
    rcases loop_spec sel _ (s.st.length + 1) s h (Nat.lt_succ_self _) with ⟨t, e, hi, hs, hl, hn⟩ | ⟨t, g, i, e, hi, hs, hl, hg, hsel, hc, hil⟩
    · obtain ⟨e1, e2⟩ := idle_pop hi hn
      simp only [e]
      simp only [e1, Bool.false_eq_true, if_false]
      refine ⟨good_ok (by rw [hs.fr]; exact e2) hs.kept (fun p hp => Or.inl (hl ▸ hp)), (fun e => by cases e), (fun t' e => by cases e; exact hs.canc)⟩
    · simp only [e]
      refine ⟨good_ok ?_ ?_ (fresh_advance g i hl hs.ls hil), (fun e => by cases e), (fun t' e => by cases e; exact hs.canc)⟩
      · have := inv_advance hi g i hg hc hil
        show Inv _ (Frame.send sid sel :: t.fr)
        rw [hs.fr]
        exact inv_fr this _
      · intro sid' S hk
        exact kept_advance g i sid' S (hs.kept sid' S hk)
  | fin sel =>
    unfold resume
    rcases loop_spec sel _ (s.st.length + 1) s h (Nat.lt_succ_self _) with ⟨t, e, hi, hs, hl, hn⟩ | ⟨t, g, i, e, hi, hs, hl, hg, hsel, hc, hil⟩
    · simp only [e]
      refine ⟨good_ok (by rw [hs.fr]; exact inv_pop hi (fun _ _ e => by cases e)) hs.kept (fun p hp => Or.inl (hl ▸ hp)), (fun e => by cases e), (fun t' e => by cases e; exact hs.canc)⟩
    · simp only [e]
      refine ⟨good_ok ?_ ?_ (fresh_advance g i hl hs.ls hil), (fun e => by cases e), (fun t' e => by cases e; exact hs.canc)⟩
      · have := inv_advance hi g i hg hc hil
        show Inv _ (Frame.fin sel :: t.fr)
        rw [hs.fr]
        exact inv_fr this _
      · intro sid' S hk
        exact kept_advance g i sid' S (hs.kept sid' S hk)
  | exit cur b =>
    have h' : Inv s s.fr := inv_pop h (fun _ _ e => by cases e)
    refine ⟨cycle_good h' cur b, ?_, ?_⟩
    · intro e
      unfold resume cycle at e
      cases cur with
      | none => cases e
      | some i =>
        simp only [] at e
        split at e
        · cases e
        · rename_i hl
          exact ⟨i, b, rfl, fun hm => hl ((live_iff s i).2 hm)⟩
    · intro t e
      unfold resume cycle at e
      cases cur with
      | none => cases e; rfl
      | some i =>
        simp only [] at e
        split at e
        · cases e; rfl
        · cases e

theorem unwind_good {s : St} (f : Frame) (h : Inv s (f :: s.fr)) :
    Good s (unwind s f) ∧ (unwind s f = .ub → ∃ i b, f = .exit (some i) b ∧ i ∉ ids s.ls) := by
  cases f with
  | send sid sel =>
    have hn : ∀ g ∈ (stop s sel).st, g.sel ≠ sel := by
      intro g hg
      have := (List.mem_filter.1 hg).2
      simpa using this
    obtain ⟨e1, e2⟩ := idle_pop (inv_stop h sel) hn
    simp only [unwind, e1, Bool.false_eq_true, if_false]
    exact ⟨good_ok e2 (kept_stop sel) (fun p hp => Or.inl hp), (fun e => by cases e)⟩
  | fin sel =>
    refine ⟨good_ok (inv_stop (inv_pop h (fun _ _ e => by cases e)) sel) (kept_stop sel) (fun p hp => Or.inl hp), (fun e => by cases e)⟩
  | exit cur b =>
    have h' : Inv s s.fr := inv_pop h (fun _ _ e => by cases e)
    unfold unwind
    cases b with
    | true => exact ⟨good_bad (fun _ e => by cases e), (fun e => by cases e)⟩
    | false =>
      refine ⟨cycle_good h' cur true, ?_⟩
      intro e
      simp only [Bool.false_eq_true, if_false] at e
      unfold cycle at e
      cases cur with
      | none => cases e
      | some i =>
        simp only [] at e
        split at e
        · cases e
        · rename_i hl
          exact ⟨i, false, rfl, fun hm => hl ((live_iff s i).2 hm)⟩

/-- Why a step may be undefined. -/
def Bad (s : St) (o : Op) : Prop :=
  (∃ v, o = .add v ∧ s.lbad = true) ∨ (∃ x sel, o = .send x sel ∧ s.sbad = true) ∨
  (∃ sel g i, o = .current sel ∧ g ∈ s.st ∧ g.prev = some i ∧ i ∉ ids s.ls) ∨
  ((o = .ret ∨ o = .throw) ∧ ∃ i b F, s.fr = .exit (some i) b :: F ∧ i ∉ ids s.ls)

theorem kept_push {s : St} (sender : Option Nat) (sel sid : Nat) (S : List Nat) (hk : Kept sid S s) : Kept sid S (pushStage s sender sel) := by
  rcases hk with ⟨k, hk, e⟩ | hk | hk
  · exact Or.inl ⟨k, List.mem_append_left _ hk, e⟩
  · exact Or.inr (Or.inl hk)
  · exact Or.inr (Or.inr hk)

theorem step_good {s : St} (h : Inv s s.fr) (o : Op) : Good s (step s o) ∧ (step s o = .ub → Bad s o) := by
  cases o with
  | add v =>
    simp only [step]
    split
    · rename_i hb; exact ⟨good_bad (fun _ e => by cases e), fun _ => Or.inl ⟨v, rfl, hb⟩⟩
    · exact ⟨good_ok (inv_grow h v (Or.inl rfl) rfl) (fun _ _ h => h) (fun _ hp => Or.inl hp), fun e => by cases e⟩
  | padd v => exact ⟨good_ok (inv_grow h v (Or.inr rfl) rfl) (fun _ _ h => h) (fun _ hp => Or.inl hp), fun e => by cases e⟩
  | remove v =>
    refine ⟨good_ok ?_ ?_ ?_, fun e => by cases e⟩
    · have : (remove s v).fr = s.fr := by unfold remove; split <;> rfl
      rw [this]; exact inv_remove h v
    · intro sid S hk
      unfold remove
      split
      · exact hk
      · rename_i x _
        refine kept_map (s := s) (t := { s with ls := s.ls.filter (fun y => !(y.1 == x.1)), lbad := badAfter (fun y => y.1 == x.1) s.ls s.lbad, st := s.st.map (Stage.skip s.ls x.1) }) (Stage.skip s.ls x.1) ?_ rfl rfl rfl sid S hk
        intro g _
        unfold Stage.skip; split <;> exact ⟨rfl, rfl⟩
    · have : (remove s v).log = s.log := by unfold remove; split <;> rfl
      intro p hp; rw [this] at hp; exact Or.inl hp
  | removeAll =>
    refine ⟨good_ok (inv_removeAll h) ?_ (fun p hp => Or.inl hp), fun e => by cases e⟩
    intro sid S hk
    rcases hk with ⟨k, hk, e, _⟩ | hk | hk
    · right; right; exact List.mem_append_right _ (List.mem_map.2 ⟨k, hk, e⟩)
    · exact Or.inr (Or.inl hk)
    · right; right; exact List.mem_append_left _ hk
  | send x sel =>
    simp only [step]
    split
    · rename_i hb; exact ⟨good_bad (fun _ e => by cases e), fun _ => Or.inr (Or.inl ⟨x, sel, rfl, hb⟩)⟩
    · obtain ⟨g, hu, -⟩ := resume_good (s := pushStage s x sel) (.send s.nsid sel) (inv_push h x sel)
      refine ⟨⟨g.inv, fun t e sid S hk => g.kept t e sid S (kept_push x sel sid S hk), g.fresh⟩, fun e => ?_⟩
      obtain ⟨i, b, e, _⟩ := hu e
      cases e
  | finish sel =>
    obtain ⟨g, hu, -⟩ := resume_good (s := s) (.fin sel) (inv_frame h sel)
    refine ⟨g, fun e => ?_⟩
    obtain ⟨i, b, e, _⟩ := hu e
    cases e
  | stop sel => exact ⟨good_ok (inv_stop h sel) (kept_stop sel) (fun p hp => Or.inl hp), fun e => by cases e⟩
  | current sel =>
    simp only [step, current]
    cases hf : s.st.find? (fun g => g.sel == sel) with
    | none => exact ⟨good_ok h (fun _ _ h => h) (fun _ hp => Or.inl hp), fun e => by cases e⟩
    | some g =>
      cases hp : g.prev with
      | none => simp only [hp]; exact ⟨good_ok h (fun _ _ h => h) (fun _ hp => Or.inl hp), fun e => by cases e⟩
      | some i =>
        simp only [hp]
        split
        · exact ⟨good_ok h (fun _ _ h => h) (fun _ hp => Or.inl hp), fun e => by cases e⟩
        · rename_i hl
          exact ⟨good_bad (fun _ e => by cases e), fun _ => Or.inr (Or.inr (Or.inl ⟨sel, g, i, rfl, (find_sel hf).1, hp, fun hm => hl ((live_iff s i).2 hm)⟩))⟩
  | exit =>
    refine ⟨cycle_good h _ _, fun e => ?_⟩
    simp only [step, cycle] at e
    cases hls : s.ls with
    | nil => simp [hls] at e
    | cons x l =>
      have : live s x.1 = true := by rw [live_iff, hls]; simp [ids]
      simp [hls, this] at e
  | ret =>
    simp only [step]
    cases hf : s.fr with
    | nil => exact ⟨good_bad (fun _ e => by cases e), fun e => by cases e⟩
    | cons f r =>
      simp only []
      obtain ⟨g, hu, -⟩ := resume_good (s := { s with fr := r }) f (inv_fr (hf ▸ h) r)
      refine ⟨⟨g.inv, fun t e sid S hk => g.kept t e sid S hk, g.fresh⟩, fun e => ?_⟩
      obtain ⟨i, b, e, hi⟩ := hu e
      exact Or.inr (Or.inr (Or.inr ⟨Or.inl rfl, i, b, r, by rw [hf, e], hi⟩))
  | throw =>
    simp only [step]
    cases hf : s.fr with
    | nil => exact ⟨good_bad (fun _ e => by cases e), fun e => by cases e⟩
    | cons f r =>
      simp only []
      obtain ⟨g, hu⟩ := unwind_good (s := { s with fr := r }) f (inv_fr (hf ▸ h) r)
      refine ⟨⟨g.inv, fun t e sid S hk => g.kept t e sid S hk, g.fresh⟩, fun e => ?_⟩
      obtain ⟨i, b, e, hi⟩ := hu e
      exact Or.inr (Or.inr (Or.inr ⟨Or.inr rfl, i, b, r, by rw [hf, e], hi⟩))

theorem run_inv {l : List Op} : ∀ {s t : St}, Inv s s.fr → run s l = .ok t → Inv t t.fr ∧ ∀ sid S, Kept sid S s → Kept sid S t := by
  induction l with
  | nil => intro s t h e; cases e; exact ⟨h, fun _ _ h => h⟩
  | cons o l ih =>
    intro s t h e
    unfold run at e
    have hg := (step_good h o).1
    cases hs : step s o with
    | ok u =>
      rw [hs] at e
      obtain ⟨h1, h2⟩ := ih (hg.inv u hs) e
      exact ⟨h1, fun sid S hk => h2 sid S (hg.kept u hs sid S hk)⟩
    | ub => rw [hs] at e; cases e
    | stuck => rw [hs] at e; cases e
    | term => rw [hs] at e; cases e

/-! ### Results -/

/-- Operations that stop the distribution. -/
def Op.stops : Op → Bool
  | .stop _ => true
  | .removeAll => true
  | .throw => true
  | _ => false

theorem step_canc {s t : St} (h : Inv s s.fr) (o : Op) (ho : o.stops = false) (e : step s o = .ok t) : t.canc = s.canc := by
  cases o with
  | add v => simp only [step] at e; split at e <;> cases e; rfl
  | padd v => cases e; rfl
  | remove v => cases e; unfold remove; split <;> rfl
  | removeAll => cases ho
  | send x sel =>
    simp only [step] at e
    split at e
    · cases e
    · exact (resume_good (s := pushStage s x sel) (.send s.nsid sel) (inv_push h x sel)).2.2 t e
  | finish sel => exact (resume_good (s := s) (.fin sel) (inv_frame h sel)).2.2 t e
  | stop sel => cases ho
  | current sel =>
    simp only [step, current] at e
    split at e
    · cases e; rfl
    · split at e
      · cases e; rfl
      · split at e <;> cases e; rfl
  | exit =>
    simp only [step, cycle] at e
    split at e
    · cases e; rfl
    · split at e <;> cases e; rfl
  | ret =>
    simp only [step] at e
    split at e
    · cases e
    · rename_i f r hf
      exact (resume_good (s := { s with fr := r }) f (inv_fr (hf ▸ h) r)).2.2 t e
  | throw => cases ho

theorem run_canc {l : List Op} (hl : ∀ o ∈ l, o.stops = false) : ∀ {s t : St}, Inv s s.fr → run s l = .ok t → t.canc = s.canc := by
  induction l with
  | nil => intro s t _ e; cases e; rfl
  | cons o l ih =>
    intro s t h e
    unfold run at e
    cases hs : step s o with
    | ok u =>
      rw [hs] at e
      rw [ih (fun o ho => hl o (by simp [ho])) ((step_good h o).1.inv u hs) e]
      exact step_canc h o (hl o (by simp)) hs
    | ub => rw [hs] at e; cases e
    | stuck => rw [hs] at e; cases e
    | term => rw [hs] at e; cases e

/-- A sent message is kept with the listeners of that time. -/
theorem send_kept {s t : St} (h : Inv s s.fr) (x : Option Nat) (sel : Nat) (e : step s (.send x sel) = .ok t) :
    Kept s.nsid (ids s.ls) t := by
  simp only [step] at e
  split at e
  · cases e
  · refine (resume_good (s := pushStage s x sel) (.send s.nsid sel) (inv_push h x sel)).1.kept t e _ _ ?_
    left
    exact ⟨_, List.mem_append_right _ (List.mem_singleton.2 rfl), rfl, rfl⟩

/-- C140: when `send` has returned and its message was not stopped, every
listener that was there when it was sent and still is has got it. -/
theorem C140_delivered (l1 l2 : List Op) (s u : St) (x : Option Nat) (sel : Nat) (h1 : run new l1 = .ok s)
    (h2 : run s (.send x sel :: l2) = .ok u) (hret : ∀ k, Frame.send s.nsid k ∉ u.fr) (hst : s.nsid ∉ u.canc) :
    ∀ i ∈ ids s.ls, i ∈ ids u.ls → (s.nsid, i) ∈ u.log := by
  have hi := (run_inv inv_new h1).1
  have e := h2
  unfold run at e
  cases hs : step s (.send x sel) with
  | ok t =>
    rw [hs] at e
    have hg := (step_good hi (.send x sel)).1
    obtain ⟨hu, hk⟩ := run_inv (hg.inv t hs) e
    intro i hm hm'
    rcases hk _ _ (send_kept hi x sel hs) with ⟨g, hgm, e1, _⟩ | hd | hc
    · exact absurd (e1 ▸ hu.own g hgm) (hret g.sel)
    · exact (hu.fin _ hd i hm).2 hm'
    · exact absurd hc hst
  | ub => rw [hs] at e; cases e
  | stuck => rw [hs] at e; cases e
  | term => rw [hs] at e; cases e

/-- C140: nothing is stopped unless a listener asks for it or throws. -/
theorem C140_not_stopped (l1 l2 : List Op) (s u : St) (x : Option Nat) (sel : Nat) (h1 : run new l1 = .ok s)
    (h2 : run s (.send x sel :: l2) = .ok u) (hl : ∀ o ∈ l2, o.stops = false) : s.nsid ∉ u.canc := by
  have hi := (run_inv inv_new h1).1
  rw [run_canc (l := .send x sel :: l2) (by
    intro o ho
    rcases List.mem_cons.1 ho with rfl | ho
    · rfl
    · exact hl o ho) hi h2]
  intro hm
  exact Nat.lt_irrefl _ (hi.clt _ hm)

/-- C140: no listener gets a message twice. -/
theorem C140_once (l : List Op) (s : St) (h : run new l = .ok s) : s.log.Nodup := (run_inv inv_new h).1.lognd

/-- C140: the listeners get a message in their order. -/
theorem C140_order (l : List Op) (s : St) (h : run new l = .ok s) (sid : Nat) : (still s.ls s.log sid).Sublist (ids s.ls) :=
  (run_inv inv_new h).1.ord sid

/-- C140: only those that are listeners at that time get it. -/
theorem C140_only_listeners (l : List Op) (s t : St) (o : Op) (h : run new l = .ok s) (ht : step s o = .ok t) :
    ∀ p ∈ t.log, p ∈ s.log ∨ p.2 ∈ ids s.ls := (step_good (run_inv inv_new h).1 o).1.fresh t ht

/-- C140: undefined behaviour has only the reasons of `Bad`. -/
theorem C140_ub_partial (l : List Op) (s : St) (o : Op) (h : run new l = .ok s) (ht : step s o = .ub) : Bad s o :=
  (step_good (run_inv inv_new h).1 o).2 ht

/-! ### A use of the distributor that is always defined -/

/-- What is needed of the flags. -/
structure Tame (c : Nat) (s : St) : Prop where
  sb : s.sbad = false
  sel : ∀ g ∈ s.st, g.sel = c
  fr : ∀ f ∈ s.fr, ∀ cur b, f ≠ .exit cur b

theorem bad_none {α : Type} (p : α → Bool) (l : List α) (bad : Bool) (h : ∀ x ∈ l, p x = false) (hb : bad = false) : badAfter p l bad = false := by
  unfold badAfter
  split
  · rfl
  · split
    · exact hb
    · rename_i x hx
      rw [h x (List.mem_of_getLast? hx)]
      exact hb

theorem bad_all {α : Type} (p : α → Bool) (l : List α) (bad : Bool) (h : ∀ x ∈ l, p x = true) : badAfter p l bad = false := by
  unfold badAfter
  have : l.filter (fun x => !p x) = [] := by
    rw [List.filter_eq_nil_iff]
    intro x hx
    simp [h x hx]
  simp [this]

theorem tame_erase {c : Nat} {s : St} {F : List Frame} (h : Inv s F) (ht : Tame c s) (g : Stage)
    (hg : s.st.find? (fun g => g.sel == c) = some g) : Tame c (eraseStage s g) := by
  refine ⟨?_, fun k hk => ht.sel k (List.mem_filter.1 hk).1, ht.fr⟩
  show badAfter (fun h => h.sid == g.sid) s.st s.sbad = false
  cases hs : s.st with
  | nil => rw [hs] at hg; cases hg
  | cons k r =>
    have hk : k = g := by
      rw [hs] at hg
      have : k.sel = c := ht.sel k (by rw [hs]; simp)
      simp [this] at hg
      exact hg
    subst hk
    have hnd : (k.sid :: r.map (·.sid)).Nodup := by have := h.sids; rw [hs] at this; exact this
    unfold badAfter
    cases r with
    | nil => simp
    | cons k2 r =>
      split
      · rfl
      · split
        · exact ht.sb
        · rename_i x hx
          have hm : x ∈ k2 :: r := by
            rw [List.getLast?_cons_cons] at hx
            exact List.mem_of_getLast? hx
          have : x.sid ≠ k.sid := by
            intro e
            exact (List.nodup_cons.1 hnd).1 (e ▸ List.mem_map_of_mem hm)
          have hb : (x.sid == k.sid) = false := by simp [this]
          simp only [hb, Bool.false_eq_true, if_false]
          exact ht.sb

theorem tame_advance {c : Nat} {s : St} (ht : Tame c s) (g : Stage) (i : Nat) : Tame c (advance s g i) := by
  refine ⟨ht.sb, ?_, ht.fr⟩
  intro k hk
  obtain ⟨k', hk', rfl⟩ := List.mem_map.1 hk
  have := ht.sel k' hk'
  split
  · exact this
  · exact this

theorem tame_loop (c sel : Nat) (F : List Frame) : ∀ (n : Nat) (s : St), Inv s F → Tame c s →
    (∀ t, loop sel n s = .idle t → Tame c t) ∧ (∀ t, loop sel n s = .call t → Tame c t) := by
  intro n
  induction n with
  | zero => intro s _ ht; exact ⟨fun t e => by cases e; exact ht, fun t e => by cases e⟩
  | succ n ih =>
    intro s h ht
    unfold loop
    cases hf : s.st.find? (fun g => g.sel == sel) with
    | none => exact ⟨fun t e => by cases e; exact ht, fun t e => by cases e⟩
    | some g =>
      have hsel : c = sel := by rw [← ht.sel g (find_sel hf).1, (find_sel hf).2]
      subst hsel
      simp only []
      cases hc : g.cur with
      | none => exact ih _ (inv_erase h g (find_sel hf).1 hc) (tame_erase h ht g hf)
      | some i =>
        simp only []
        split
        · exact ⟨fun t e => (by cases e), fun t e => by cases e; exact tame_advance ht g i⟩
        · exact ⟨fun t e => (by cases e), fun t e => by cases e⟩

theorem tame_fr {c : Nat} {s : St} (ht : Tame c s) (F : List Frame) (hF : ∀ f ∈ F, ∀ cur b, f ≠ .exit cur b) : Tame c { s with fr := F } :=
  ⟨ht.sb, ht.sel, hF⟩

theorem tame_resume {c : Nat} {s t : St} (f : Frame) (h : Inv s (f :: s.fr)) (ht : Tame c s) (hf : ∀ cur b, f ≠ .exit cur b)
    (e : resume s f = .ok t) : Tame c t := by
  cases f with
  | send sid sel =>
    obtain ⟨h1, h2⟩ := tame_loop c sel _ (s.st.length + 1) s h ht
    simp only [resume] at e
    split at e
    · cases e
    · rename_i s' hs
      cases e
      refine tame_fr (h2 _ hs) _ ?_
      intro f hfm
      rcases List.mem_cons.1 hfm with rfl | hfm
      · exact hf
      · exact (h2 _ hs).fr f hfm
    · rename_i s' hs
      split at e
      · cases e
      · cases e; exact h1 _ hs
  | fin sel =>
    obtain ⟨h1, h2⟩ := tame_loop c sel _ (s.st.length + 1) s h ht
    simp only [resume] at e
    split at e
    · cases e
    · rename_i s' hs
      cases e
      refine tame_fr (h2 _ hs) _ ?_
      intro f hfm
      rcases List.mem_cons.1 hfm with rfl | hfm
      · exact hf
      · exact (h2 _ hs).fr f hfm
    · rename_i s' hs
      cases e; exact h1 _ hs
  | exit cur b => exact absurd rfl (hf cur b)

theorem tame_stop {c : Nat} {s : St} (ht : Tame c s) (sel : Nat) : Tame c (stop s sel) := by
  refine ⟨?_, fun k hk => ht.sel k (List.mem_filter.1 hk).1, ht.fr⟩
  show badAfter (fun g => g.sel == sel) s.st s.sbad = false
  by_cases e : c = sel
  · exact bad_all _ _ _ (fun k hk => by simp [ht.sel k hk, e])
  · exact bad_none _ _ _ (fun k hk => by simp [ht.sel k hk, e]) ht.sb

/-- One stage, no exit message, nobody asks for the current listener. -/
def Op.tame (c : Nat) : Op → Bool
  | .send _ sel => sel == c
  | .exit => false
  | .current _ => false
  | _ => true

theorem tame_step {c : Nat} {s t : St} (h : Inv s s.fr) (ht : Tame c s) (o : Op) (ho : o.tame c = true) (e : step s o = .ok t) : Tame c t := by
  cases o with
  | add v => simp only [step] at e; split at e <;> cases e; exact ⟨ht.sb, ht.sel, ht.fr⟩
  | padd v => cases e; exact ⟨ht.sb, ht.sel, ht.fr⟩
  | remove v =>
    cases e
    unfold remove
    split
    · exact ht
    · refine ⟨ht.sb, ?_, ht.fr⟩
      intro k hk
      obtain ⟨k', hk', rfl⟩ := List.mem_map.1 hk
      have := ht.sel k' hk'
      unfold Stage.skip
      split
      · exact this
      · exact this
  | removeAll => cases e; exact ⟨rfl, by simp [removeAll], ht.fr⟩
  | send x sel =>
    have hc : sel = c := by simpa [Op.tame] using ho
    subst hc
    simp only [step, ht.sb, Bool.false_eq_true, if_false] at e
    refine tame_resume _ (inv_push h x sel) ⟨ht.sb, ?_, ht.fr⟩ (fun _ _ e => by cases e) e
    intro k hk
    rcases List.mem_append.1 hk with hk | hk
    · exact ht.sel k hk
    · simp at hk; rw [hk]
  | finish sel => exact tame_resume _ (inv_frame h sel) ht (fun _ _ e => by cases e) e
  | stop sel => cases e; exact tame_stop ht sel
  | current sel => cases ho
  | exit => cases ho
  | ret =>
    simp only [step] at e
    split at e
    · cases e
    · rename_i f r hf
      have h' := ht.fr
      rw [hf] at h'
      exact tame_resume _ (inv_fr (hf ▸ h) r) (tame_fr ht r (fun f hfm => h' f (by simp [hfm]))) (h' f (by simp)) e
  | throw =>
    simp only [step] at e
    split at e
    · cases e
    · rename_i f r hf
      have h' := ht.fr
      rw [hf] at h'
      have ht' := tame_fr ht r (fun f hfm => h' f (by simp [hfm]))
      cases f with
      | send sid sel =>
        simp only [unwind] at e
        split at e
        · cases e
        · cases e; exact tame_stop ht' sel
      | fin sel => cases e; exact tame_stop ht' sel
      | exit cur b => exact absurd rfl (h' _ (by simp) cur b)

theorem step_lbad {s t : St} (o : Op) (ho : ∀ v, o ≠ .remove v) (hb : s.lbad = false) (e : step s o = .ok t) : t.lbad = false := by
  have hloop : ∀ sel n (s : St), (∀ t, loop sel n s = .idle t → t.lbad = s.lbad) ∧ (∀ t, loop sel n s = .call t → t.lbad = s.lbad) := by
    intro sel n
    induction n with
    | zero => intro s; exact ⟨fun t e => by cases e; rfl, fun t e => by cases e⟩
    | succ n ih =>
      intro s
      unfold loop
      split
      · exact ⟨fun t e => by cases e; rfl, fun t e => by cases e⟩
      · split
        · exact ih _
        · split
          · exact ⟨fun t e => (by cases e), fun t e => by cases e; rfl⟩
          · exact ⟨fun t e => (by cases e), fun t e => by cases e⟩
  have hcyc : ∀ (s t : St) cur b, cycle s cur b = .ok t → t.lbad = s.lbad := by
    intro s t cur b e
    unfold cycle at e
    split at e
    · cases e; rfl
    · split at e <;> cases e; rfl
  have hres : ∀ (s t : St) f, resume s f = .ok t → t.lbad = s.lbad := by
    intro s t f e
    unfold resume at e
    split at e
    · split at e
      · cases e
      · rename_i s' hs; cases e; exact (hloop _ _ _).2 s' hs
      · rename_i s' hs
        split at e
        · cases e
        · cases e; exact (hloop _ _ _).1 _ hs
    · split at e
      · cases e
      · rename_i s' hs; cases e; exact (hloop _ _ _).2 s' hs
      · rename_i s' hs; cases e; exact (hloop _ _ _).1 _ hs
    · exact hcyc _ _ _ _ e
  cases o with
  | add v => simp only [step] at e; split at e <;> cases e; exact hb
  | padd v => cases e; exact hb
  | remove v => exact absurd rfl (ho v)
  | removeAll => cases e; rfl
  | send x sel =>
    simp only [step] at e
    split at e
    · cases e
    · rw [hres _ _ _ e]; exact hb
  | finish sel => simp only [step] at e; rw [hres _ _ _ e]; exact hb
  | stop sel => cases e; exact hb
  | current sel =>
    simp only [step, current] at e
    split at e
    · cases e; exact hb
    · split at e
      · cases e; exact hb
      · split at e <;> cases e; exact hb
  | exit => simp only [step] at e; rw [hcyc _ _ _ _ e]; exact hb
  | ret =>
    simp only [step] at e
    split at e
    · cases e
    · rw [hres _ _ _ e]; exact hb
  | throw =>
    simp only [step] at e
    split at e
    · cases e
    · unfold unwind at e
      split at e
      · split at e <;> cases e; exact hb
      · cases e; exact hb
      · split at e
        · cases e
        · rw [hcyc _ _ _ _ e]; exact hb

/-- C140: with one stage, without exit message and `getCurrent`, and when
listeners are never removed or only added in front, nothing is undefined. -/
theorem C140_defined_partial (c : Nat) (l : List Op) (hl : ∀ o ∈ l, o.tame c = true)
    (h : (∀ v, Op.remove v ∉ l) ∨ (∀ v, Op.add v ∉ l)) : run new l ≠ .ub := by
  have key : ∀ (l : List Op) (s : St), (∀ o ∈ l, o.tame c = true) → Inv s s.fr → Tame c s →
      ((∀ v, Op.remove v ∉ l) ∧ s.lbad = false ∨ (∀ v, Op.add v ∉ l)) → run s l ≠ .ub := by
    intro l
    induction l with
    | nil => intro s _ _ _ _ e; cases e
    | cons o l ih =>
      intro s hl hi ht h e
      unfold run at e
      have hto := hl o (by simp)
      cases hs : step s o with
      | ok t =>
        rw [hs] at e
        refine ih t (fun o ho => hl o (by simp [ho])) ((step_good hi o).1.inv t hs) (tame_step hi ht o hto hs) ?_ e
        rcases h with ⟨h1, h2⟩ | h1
        · left
          refine ⟨fun v hm => h1 v (by simp [hm]), step_lbad o ?_ h2 hs⟩
          intro v e
          exact h1 v (by simp [e])
        · right
          exact fun v hm => h1 v (by simp [hm])
      | ub =>
        rcases (step_good hi o).2 hs with ⟨v, e1, e2⟩ | ⟨x, sel, e1, e2⟩ | ⟨sel, g, i, e1, -⟩ | ⟨-, i, b, F, e1, -⟩
        · rcases h with ⟨_, h2⟩ | h1
          · rw [h2] at e2; cases e2
          · exact h1 v (by simp [e1])
        · rw [ht.sb] at e2; cases e2
        · rw [e1] at hto; cases hto
        · exact ht.fr (.exit (some i) b) (by rw [e1]; simp) _ _ rfl
      | stuck => rw [hs] at e; cases e
      | term => rw [hs] at e; cases e
  refine key l new hl inv_new ⟨rfl, by simp [new], by simp [new]⟩ ?_
  rcases h with h | h
  · exact Or.inl ⟨h, rfl⟩
  · exact Or.inr h

/-! ### What the code does wrong -/

/-- C140 violated: after the last of two listeners is removed, adding another
one writes to the removed item. -/
theorem C140_add_violated : run new [.add 1, .add 2, .remove 2, .add 3] = .ub := by decide

/-- C140 violated: a listener of stage 0 sends two messages in stage 1; the
first takes its stage from the end of the list, the second is put behind it. -/
theorem C140_stages_violated : run new [.add 1, .send none 0, .send none 1, .ret, .send none 1] = .ub := by decide

/-- C140 violated: a listener that removes the next one during the exit message,
or all of them, leaves a position that is gone (`exitMsgStage` is never set). -/
theorem C140_exit_violated :
    run new [.add 1, .add 2, .exit, .remove 2, .ret] = .ub ∧ run new [.add 1, .add 2, .exit, .removeAll, .ret] = .ub := by decide

/-- C140 violated: a listener that has removed itself, or the next one, asks for
the current listener. -/
theorem C140_current_violated :
    run new [.add 1, .add 2, .send none 0, .remove 1, .current 0] = .ub ∧
    run new [.add 1, .add 2, .send none 0, .remove 2, .current 0] = .ub := by decide

def logOf : Out → Option (List (Nat × Nat) × List Nat)
  | .ok s => some (s.log, s.xlog)
  | _ => none

/-- C140 violated: the sender gets its own message, though the description says
it is skipped. -/
theorem C140_sender_violated : logOf (run new [.add 7, .add 8, .send (some 7) 0]) = some ([(0, 0)], []) := by decide

/-- C140 violated: an exception stops only its own stage, though the description
says all stages: message 0 goes on. -/
theorem C140_exception_violated :
    logOf (run new [.add 1, .add 2, .send none 0, .send none 1, .throw, .ret]) = some ([(0, 1), (1, 0), (0, 0)], []) := by decide

/-! ### Examples -/

/-- A listener sends another message of the stage: the first one goes on inside
the call, then the second one follows. -/
example : logOf (run new [.add 1, .add 2, .send none 0, .send none 0, .ret, .ret, .ret, .ret]) = some ([(1, 1), (1, 0), (0, 1), (0, 0)], []) := by decide
/-- Stages are independent. -/
example : logOf (run new [.add 1, .add 2, .send none 0, .send none 1, .ret, .ret, .ret, .ret]) = some ([(0, 1), (1, 1), (1, 0), (0, 0)], []) := by decide
/-- The next listener is removed while the message is on its way. -/
example : logOf (run new [.add 1, .add 2, .add 3, .send none 0, .remove 2, .ret, .ret]) = some ([(0, 2), (0, 0)], []) := by decide
/-- A listener that is added last gets the message, one that is added in front
does not. -/
example : logOf (run new [.add 1, .add 2, .send none 0, .add 3, .padd 4, .ret, .ret, .ret]) = some ([(0, 2), (0, 1), (0, 0)], []) := by decide
/-- The listener stops the message. -/
example : logOf (run new [.add 1, .add 2, .send none 0, .stop 0, .ret]) = some ([(0, 0)], []) := by decide
/-- The exit message, with an exception in between; the second one ends the
program. -/
example : logOf (run new [.add 1, .add 2, .add 3, .exit, .throw, .ret, .ret]) = some ([], [2, 1, 0]) := by decide
example : run new [.add 1, .add 2, .add 3, .exit, .throw, .throw] = .term := by decide
/-- The current listener is known. -/
example : logOf (run new [.add 1, .add 2, .send none 0, .current 0, .ret, .current 0, .ret]) = some ([(0, 1), (0, 0)], []) := by decide

end LS.Distrib
