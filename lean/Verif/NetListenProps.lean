import Verif.EpollProps
import Verif.NetListen

namespace LS.NetListen

open LS.Epoll (Want St Refs Kern expired tmLess)

/-- The listeners that wait for a descriptor. -/
def waits (n : Net) (f : Nat) : List Lst :=
  if LS.Epoll.getData n.poll f = 0 then [] else (n.mem (LS.Epoll.getData n.poll f)).getD []

theorem data_eq (s : St) (f : Nat) : LS.Epoll.getData s f = (s.fd f).data := by
  unfold LS.Epoll.getData
  split
  · next h => simp [St.fd, List.getD, h, LS.Epoll.Fd.new]
  · rfl

/-- What holds for a descriptor with listeners. -/
structure Busy (n : Net) (f : Nat) (ls : List Lst) : Prop where
  want : ∀ l t, ls = l :: t → (n.poll.fd f).want = masks l t
  tm : ∀ l t, ls = l :: t → (n.poll.fd f).tm = lowest l t
  kern : ∀ l t, ls = l :: t → n.poll.kern f = some (masks l t).ev

/-- The lists. -/
def Fine (ls : List Lst) : Prop := (∀ l ∈ ls, l.mask.any = true) ∧ (ls.map (·.obs)).Nodup

/-- All descriptors but `x` (0: none of them is left out, the number is one higher). -/
structure Inv' (n : Net) (x : Nat) : Prop where
  refs : Refs n.poll
  us : ∀ f, n.poll.usable f = true
  fr : 0 < n.fresh
  pos : ∀ d, n.mem d ≠ none → 0 < d ∧ d < n.fresh
  heap : ∀ f, f + 1 ≠ x → f ∈ n.poll.heap → (n.poll.fd f).data ≠ 0
  idle : ∀ f, f + 1 ≠ x → (n.poll.fd f).data = 0 → (n.poll.fd f).want = .zero
  busy : ∀ f, f + 1 ≠ x → (n.poll.fd f).data ≠ 0 →
    ∃ l ls, n.mem (n.poll.fd f).data = some (l :: ls) ∧ Fine (l :: ls) ∧ Busy n f (l :: ls)
  inj : ∀ f g, f + 1 ≠ x → g + 1 ≠ x → (n.poll.fd f).data ≠ 0 → (n.poll.fd f).data = (n.poll.fd g).data → f = g

/-- Between the steps. -/
structure Inv (n : Net) : Prop extends Inv' n 0 where
  own : ∀ d, n.mem d ≠ none → ∃ f, (n.poll.fd f).data = d

/-- Before `updateFdData`. -/
structure Pre (n : Net) (d f : Nat) (ls : List Lst) : Prop extends Inv' n (f + 1) where
  mem : n.mem d = some ls
  fine : Fine ls
  own : ∀ x, x ≠ d → n.mem x ≠ none → ∃ g, g ≠ f ∧ (n.poll.fd g).data = x
  other : ∀ g, g ≠ f → (n.poll.fd g).data ≠ d
  low : f ≤ 1024 ∨ f < n.poll.map.length

theorem set_ok (s : St) (hr : Refs s) (hu : ∀ f, s.usable f = true) (f : Nat) (w : Want) (tm : Option Nat) (d : Nat)
    (hl : f ≤ 1024 ∨ f < s.map.length) :
    ∃ t, LS.Epoll.set s f w tm d = (.ok, t) ∧ Refs t ∧ (∀ g, t.usable g = true) ∧
      ((t.fd f).tm = tm ∧ (t.fd f).want = w ∧ (t.fd f).data = d ∧ t.kern f = some w.ev) ∧
      (∀ g, g ≠ f → (t.fd g).tm = (s.fd g).tm ∧ (t.fd g).want = (s.fd g).want ∧ (t.fd g).data = (s.fd g).data ∧
        t.kern g = s.kern g) ∧
      (f ∈ t.heap ↔ tm ≠ none) ∧ (∀ g, g ≠ f → g ∈ t.heap → g ∈ s.heap) := by
  obtain ⟨a1, a2, a3, a4, _, a6, a7, a8, _, _, _⟩ := LS.Epoll.charge_spec s hr f w tm d
  refine ⟨{ LS.Epoll.charge s f w tm d with kern := fun x => if x = f then some w.ev else (LS.Epoll.charge s f w tm d).kern x }, ?_, a1, ?_, ?_, ?_, a4, a6⟩
  · unfold LS.Epoll.set
    rw [if_neg (by omega)]
    simp only []
    rw [if_pos (by rw [a8]; exact hu f)]
  · intro g; show (LS.Epoll.charge s f w tm d).usable g = true; rw [a8]; exact hu g
  · exact ⟨a2.1, a2.2.1, a2.2.2, by simp⟩
  · intro g hg
    obtain ⟨b1, b2, b3⟩ := a3 g hg
    refine ⟨b1, b2, b3, ?_⟩
    show (if g = f then some w.ev else (LS.Epoll.charge s f w tm d).kern g) = s.kern g
    rw [if_neg hg, a7]

/-- What `updateFdData` does. -/
theorem update_spec (n : Net) (d f : Nat) (ls : List Lst) (h : Pre n d f ls) :
    ∃ m, update n d f = (.ok, m) ∧ Inv m ∧ waits m f = ls ∧ ∀ g, g ≠ f → waits m g = waits n g := by
  have hd := h.pos d (by rw [h.mem]; simp)
  cases ls with
  | nil =>
    obtain ⟨t, e, c1, c2, c3, c4, c5, c6⟩ := set_ok n.poll h.refs h.us f .zero none 0 h.low
    have e' : LS.Epoll.unset n.poll f = (.ok, t) := e
    refine ⟨({ n with poll := t } : Net).free d, ?_, ?_, ?_, ?_⟩
    · unfold update; rw [h.mem]; simp only []; rw [e']
    · have hm : ∀ g, g ≠ f → (if (n.poll.fd g).data = d then none else n.mem (n.poll.fd g).data) = n.mem (n.poll.fd g).data :=
        fun g hg => if_neg (h.other g hg)
      refine ⟨⟨c1, c2, h.fr, ?_, ?_, ?_, ?_, ?_⟩, ?_⟩
      · intro x hx
        have hx' : (if x = d then none else n.mem x) ≠ none := hx
        split at hx'
        · simp at hx'
        · exact h.pos x hx'
      · intro g _ hg
        have hg' : g ∈ t.heap := hg
        by_cases hgf : g = f
        · subst hgf; exact absurd rfl (c5.1 hg')
        · show (t.fd g).data ≠ 0
          rw [(c4 g hgf).2.2.1]; exact h.heap g (by omega) (c6 g hgf hg')
      · intro g _ hg
        have hg' : (t.fd g).data = 0 := hg
        show (t.fd g).want = .zero
        by_cases hgf : g = f
        · subst hgf; exact c3.2.1
        · rw [(c4 g hgf).2.1]; exact h.idle g (by omega) (by rw [← (c4 g hgf).2.2.1]; exact hg')
      · intro g _ hg
        have hg' : (t.fd g).data ≠ 0 := hg
        by_cases hgf : g = f
        · subst hgf; exact absurd c3.2.2.1 hg'
        · obtain ⟨k1, k2, k3, k4⟩ := c4 g hgf
          rw [k3] at hg'
          obtain ⟨l, t', b1, b2, b3⟩ := h.busy g (by omega) hg'
          refine ⟨l, t', ?_, b2, ?_⟩
          · show (if (t.fd g).data = d then none else n.mem (t.fd g).data) = _
            rw [k3, hm g hgf]; exact b1
          · exact ⟨fun a b e => k2.trans (b3.want a b e), fun a b e => k1.trans (b3.tm a b e),
              fun a b e => k4.trans (b3.kern a b e)⟩
      · intro g g' _ _ h1 h2
        have h1' : (t.fd g).data ≠ 0 := h1
        have h2' : (t.fd g).data = (t.fd g').data := h2
        by_cases hgf : g = f
        · subst hgf; exact absurd c3.2.2.1 h1'
        · by_cases hgf' : g' = f
          · subst hgf'; rw [h2'] at h1'; exact absurd c3.2.2.1 h1'
          · rw [(c4 g hgf).2.2.1] at h1' h2'; rw [(c4 g' hgf').2.2.1] at h2'
            exact h.inj g g' (by omega) (by omega) h1' h2'
      · intro x hx
        have hx' : (if x = d then none else n.mem x) ≠ none := hx
        split at hx'
        · simp at hx'
        · next hxd =>
          obtain ⟨g, g1, g2⟩ := h.own x hxd hx'
          exact ⟨g, by show (t.fd g).data = x; rw [(c4 g g1).2.2.1]; exact g2⟩
    · unfold waits
      rw [data_eq, if_pos]
      exact c3.2.2.1
    · intro g hg
      unfold waits
      rw [data_eq, data_eq]
      show (if (t.fd g).data = 0 then [] else (if (t.fd g).data = d then none else n.mem (t.fd g).data).getD []) = _
      rw [(c4 g hg).2.2.1, if_neg (h.other g hg)]
  | cons l ls =>
    obtain ⟨t, e, c1, c2, c3, c4, c5, c6⟩ := set_ok n.poll h.refs h.us f (masks l ls) (lowest l ls) d h.low
    refine ⟨{ n with poll := t }, ?_, ?_, ?_, ?_⟩
    · unfold update; rw [h.mem]; simp only []; rw [e]
    · refine ⟨⟨c1, c2, h.fr, h.pos, ?_, ?_, ?_, ?_⟩, ?_⟩
      · intro g _ hg
        have hg' : g ∈ t.heap := hg
        show (t.fd g).data ≠ 0
        by_cases hgf : g = f
        · subst hgf; rw [c3.2.2.1]; omega
        · rw [(c4 g hgf).2.2.1]; exact h.heap g (by omega) (c6 g hgf hg')
      · intro g _ hg
        have hg' : (t.fd g).data = 0 := hg
        show (t.fd g).want = .zero
        by_cases hgf : g = f
        · subst hgf; rw [c3.2.2.1] at hg'; omega
        · rw [(c4 g hgf).2.1]; exact h.idle g (by omega) (by rw [← (c4 g hgf).2.2.1]; exact hg')
      · intro g _ hg
        have hg' : (t.fd g).data ≠ 0 := hg
        by_cases hgf : g = f
        · subst hgf
          refine ⟨l, ls, ?_, h.fine, ?_⟩
          · show n.mem (t.fd g).data = _
            rw [c3.2.2.1]; exact h.mem
          · exact ⟨fun a b e => by cases e; exact c3.2.1, fun a b e => by cases e; exact c3.1,
              fun a b e => by cases e; exact c3.2.2.2⟩
        · obtain ⟨k1, k2, k3, k4⟩ := c4 g hgf
          rw [k3] at hg'
          obtain ⟨l, t', b1, b2, b3⟩ := h.busy g (by omega) hg'
          refine ⟨l, t', ?_, b2, ?_⟩
          · show n.mem (t.fd g).data = _
            rw [k3]; exact b1
          · exact ⟨fun a b e => k2.trans (b3.want a b e), fun a b e => k1.trans (b3.tm a b e),
              fun a b e => k4.trans (b3.kern a b e)⟩
      · intro g g' _ _ h1 h2
        have h1' : (t.fd g).data ≠ 0 := h1
        have h2' : (t.fd g).data = (t.fd g').data := h2
        by_cases hgf : g = f
        · by_cases hgf' : g' = f
          · rw [hgf, hgf']
          · subst hgf; rw [c3.2.2.1, (c4 g' hgf').2.2.1] at h2'; exact absurd h2'.symm (h.other g' hgf')
        · by_cases hgf' : g' = f
          · subst hgf'; rw [c3.2.2.1, (c4 g hgf).2.2.1] at h2'; exact absurd h2' (h.other g hgf)
          · rw [(c4 g hgf).2.2.1] at h1' h2'; rw [(c4 g' hgf').2.2.1] at h2'
            exact h.inj g g' (by omega) (by omega) h1' h2'
      · intro x hx
        by_cases hxd : x = d
        · exact ⟨f, by rw [hxd]; exact c3.2.2.1⟩
        · obtain ⟨g, g1, g2⟩ := h.own x hxd hx
          exact ⟨g, by show (t.fd g).data = x; rw [(c4 g g1).2.2.1]; exact g2⟩
    · unfold waits
      rw [data_eq]
      show (if (t.fd f).data = 0 then [] else (n.mem (t.fd f).data).getD []) = _
      rw [c3.2.2.1, if_neg (by omega), h.mem]; rfl
    · intro g hg
      unfold waits
      rw [data_eq, data_eq]
      show (if (t.fd g).data = 0 then [] else (n.mem (t.fd g).data).getD []) = _
      rw [(c4 g hg).2.2.1]

theorem drop_fine (o : Nat) : ∀ (ls : List Lst), Fine ls →
    Fine (drop o ls) ∧ (∀ k, k ∈ drop o ls ↔ k ∈ ls ∧ k.obs ≠ o)
  | [], h => ⟨h, by simp [drop]⟩
  | l :: ls, h => by
    have hn := h.2
    rw [List.map_cons, List.nodup_cons] at hn
    have ht : Fine ls := ⟨fun k hk => h.1 k (List.mem_cons_of_mem _ hk), hn.2⟩
    rw [drop]
    split
    · next e =>
      refine ⟨ht, fun k => ⟨fun hk => ⟨List.mem_cons_of_mem _ hk, fun ek => ?_⟩, fun ⟨hk, hne⟩ => ?_⟩⟩
      · exact hn.1 (List.mem_map.2 ⟨k, hk, by rw [ek, e]⟩)
      · rcases List.mem_cons.1 hk with rfl | hk
        · exact absurd e hne
        · exact hk
    · next e =>
      obtain ⟨i1, i2⟩ := drop_fine o ls ht
      refine ⟨⟨fun k hk => ?_, ?_⟩, fun k => ?_⟩
      · rcases List.mem_cons.1 hk with rfl | hk
        · exact h.1 _ (List.mem_cons_self ..)
        · exact i1.1 k hk
      · rw [List.map_cons, List.nodup_cons]
        refine ⟨fun hm => ?_, i1.2⟩
        obtain ⟨k, hk, ek⟩ := List.mem_map.1 hm
        exact hn.1 (List.mem_map.2 ⟨k, ((i2 k).1 hk).1, ek⟩)
      · rw [List.mem_cons, List.mem_cons, i2 k]
        constructor
        · rintro (rfl | ⟨a, b⟩)
          · exact ⟨.inl rfl, e⟩
          · exact ⟨.inr a, b⟩
        · rintro ⟨rfl | a, b⟩
          · exact .inl rfl
          · exact .inr ⟨a, b⟩

theorem put_fine (l : Lst) (hl : l.mask.any = true) : ∀ (ls : List Lst), Fine ls →
    Fine (put l ls) ∧ (∀ k, k ∈ put l ls ↔ k = l ∨ k ∈ ls ∧ k.obs ≠ l.obs)
  | [], _ => ⟨⟨by simpa [put] using hl, by simp [put]⟩, by simp [put]⟩
  | x :: ls, h => by
    have hn := h.2
    rw [List.map_cons, List.nodup_cons] at hn
    have ht : Fine ls := ⟨fun k hk => h.1 k (List.mem_cons_of_mem _ hk), hn.2⟩
    rw [put]
    split
    · next e =>
      have hne : ∀ k ∈ ls, k.obs ≠ l.obs := fun k hk ek => hn.1 (List.mem_map.2 ⟨k, hk, by rw [ek, e]⟩)
      refine ⟨⟨fun k hk => ?_, ?_⟩, fun k => ?_⟩
      · rcases List.mem_cons.1 hk with rfl | hk
        · exact hl
        · exact ht.1 k hk
      · rw [List.map_cons, List.nodup_cons, ← e]; exact hn
      · rw [List.mem_cons, List.mem_cons]
        constructor
        · rintro (rfl | a)
          · exact .inl rfl
          · exact .inr ⟨.inr a, hne k a⟩
        · rintro (rfl | ⟨rfl | a, b⟩)
          · exact .inl rfl
          · exact absurd e b
          · exact .inr a
    · next e =>
      obtain ⟨i1, i2⟩ := put_fine l hl ls ht
      refine ⟨⟨fun k hk => ?_, ?_⟩, fun k => ?_⟩
      · rcases List.mem_cons.1 hk with rfl | hk
        · exact h.1 _ (List.mem_cons_self ..)
        · exact i1.1 k hk
      · rw [List.map_cons, List.nodup_cons]
        refine ⟨fun hm => ?_, i1.2⟩
        obtain ⟨k, hk, ek⟩ := List.mem_map.1 hm
        rcases (i2 k).1 hk with rfl | ⟨hk, _⟩
        · exact e ek.symm
        · exact hn.1 (List.mem_map.2 ⟨k, hk, ek⟩)
      · rw [List.mem_cons, List.mem_cons, i2 k]
        constructor
        · rintro (rfl | rfl | ⟨a, b⟩)
          · exact .inr ⟨.inl rfl, e⟩
          · exact .inl rfl
          · exact .inr ⟨.inr a, b⟩
        · rintro (rfl | ⟨rfl | a, b⟩)
          · exact .inr (.inl rfl)
          · exact .inl rfl
          · exact .inr (.inr ⟨a, b⟩)

/-- A changed list of a descriptor that has listeners. -/
theorem pre_store (n : Net) (f : Nat) (h : Inv' n (f + 1)) (d : Nat) (hd : 0 < d ∧ d < n.fresh) (ls : List Lst)
    (hfine : Fine ls) (ho : ∀ x, x ≠ d → n.mem x ≠ none → ∃ g, g ≠ f ∧ (n.poll.fd g).data = x)
    (hot : ∀ g, g ≠ f → (n.poll.fd g).data ≠ d) (hl : f ≤ 1024 ∨ f < n.poll.map.length) :
    Pre (n.store d ls) d f ls ∧ ∀ g, g ≠ f → waits (n.store d ls) g = waits n g := by
  refine ⟨⟨⟨h.refs, h.us, h.fr, ?_, h.heap, h.idle, ?_, h.inj⟩, ?_, hfine, ?_, hot, hl⟩, ?_⟩
  · intro x hx
    have hx' : (if x = d then some ls else n.mem x) ≠ none := hx
    split at hx'
    · next e => rw [e]; exact hd
    · exact h.pos x hx'
  · intro g hg hgd
    obtain ⟨l, t, b1, b2, b3⟩ := h.busy g hg hgd
    refine ⟨l, t, ?_, b2, ⟨b3.want, b3.tm, b3.kern⟩⟩
    show (if (n.poll.fd g).data = d then some ls else n.mem (n.poll.fd g).data) = _
    rw [if_neg (hot g (by omega))]; exact b1
  · show (if d = d then some ls else n.mem d) = _
    rw [if_pos rfl]
  · intro x hxd hx
    have hx' : (if x = d then some ls else n.mem x) ≠ none := hx
    rw [if_neg hxd] at hx'
    exact ho x hxd hx'
  · intro g hg
    unfold waits
    rw [data_eq, data_eq]
    show (if (n.poll.fd g).data = 0 then [] else (if (n.poll.fd g).data = d then some ls else n.mem (n.poll.fd g).data).getD []) = _
    rw [if_neg (hot g hg)]

theorem Inv.weak {n : Net} (h : Inv n) (f : Nat) : Inv' n (f + 1) :=
  ⟨h.refs, h.us, h.fr, h.pos, fun g _ => h.heap g (by omega), fun g _ => h.idle g (by omega),
    fun g _ => h.busy g (by omega), fun g g' _ _ => h.inj g g' (by omega) (by omega)⟩

theorem waits_of {n : Net} {f : Nat} {ls : List Lst} (hd : (n.poll.fd f).data ≠ 0)
    (hm : n.mem (n.poll.fd f).data = some ls) : waits n f = ls := by
  unfold waits
  rw [data_eq, if_neg hd, hm]; rfl

theorem waits_none {n : Net} {f : Nat} (hd : (n.poll.fd f).data = 0) : waits n f = [] := by
  unfold waits
  rw [data_eq, if_pos hd]

/-- What a request does. -/
theorem request_spec (n : Net) (h : Inv n) (l : Lst) (f : Nat) (hf : f ≤ 1024) :
    ∃ m, request n l f = (.ok, m) ∧ Inv m ∧
      (∀ k, k ∈ waits m f ↔ (k = l ∧ l.mask.any = true) ∨ k ∈ waits n f ∧ k.obs ≠ l.obs) ∧
      ∀ g, g ≠ f → waits m g = waits n g := by
  unfold request
  simp only [data_eq]
  by_cases hd : (n.poll.fd f).data = 0
  · cases hl : l.mask.any with
    | false =>
      rw [if_pos rfl, if_pos hd]
      exact ⟨n, rfl, h, by simp [waits_none hd], fun _ _ => rfl⟩
    | true =>
      rw [if_neg (by simp), if_pos hd]
      have hw : ∀ x, ¬ (x = n.fresh ∧ n.mem x ≠ none) := fun x ⟨e, hx⟩ => by have := h.pos x hx; omega
      have hfr : ∀ g, (n.poll.fd g).data ≠ n.fresh := by
        intro g e
        have h0 := h.fr
        obtain ⟨a, b, b1, _⟩ := h.busy g (by omega) (by omega)
        exact hw _ ⟨e, by rw [b1]; simp⟩
      have hi : Inv' ({ n with fresh := n.fresh + 1 } : Net) (f + 1) := by
        have := h.weak f
        exact ⟨this.refs, this.us, Nat.succ_pos _, fun d hx => ⟨(this.pos d hx).1, Nat.lt_succ_of_lt (this.pos d hx).2⟩,
          this.heap, this.idle, fun g a b => by
            obtain ⟨x, y, b1, b2, b3⟩ := this.busy g a b
            exact ⟨x, y, b1, b2, ⟨b3.want, b3.tm, b3.kern⟩⟩, this.inj⟩
      obtain ⟨p1, p2⟩ := pre_store ({ n with fresh := n.fresh + 1 } : Net) f hi n.fresh ⟨h.fr, Nat.lt_succ_self _⟩ [l]
        ⟨by simpa using hl, by simp⟩ (fun x _ hx => by
          obtain ⟨g, hg⟩ := h.own x hx
          refine ⟨g, fun e => ?_, hg⟩
          have := h.pos x hx
          rw [e, hd] at hg; omega) (fun g _ => hfr g) (.inl hf)
      obtain ⟨m, e, m1, m2, m3⟩ := update_spec _ _ _ _ p1
      rw [e]
      refine ⟨m, rfl, m1, fun k => ?_, fun g hg => (m3 g hg).trans (p2 g hg)⟩
      rw [m2, waits_none hd]; simp
  · obtain ⟨a, b, b1, b2, b3⟩ := h.busy f (by omega) hd
    have hx : ∀ x, x ≠ (n.poll.fd f).data → n.mem x ≠ none → ∃ g, g ≠ f ∧ (n.poll.fd g).data = x := fun x hx hm => by
      obtain ⟨g, hg⟩ := h.own x hm
      exact ⟨g, fun e => hx (by rw [← hg, e]), hg⟩
    have ho : ∀ g, g ≠ f → (n.poll.fd g).data ≠ (n.poll.fd f).data := fun g hg e =>
      hg (h.inj f g (by omega) (by omega) hd e.symm).symm
    have hp := h.pos _ (by rw [b1]; simp)
    cases hl : l.mask.any with
    | false =>
      rw [if_pos rfl, if_neg hd, b1]
      simp only []
      obtain ⟨d1, d2⟩ := drop_fine l.obs _ b2
      obtain ⟨p1, p2⟩ := pre_store n f (h.weak f) _ hp (drop l.obs (a :: b)) d1 hx ho (.inl hf)
      obtain ⟨m, e, m1, m2, m3⟩ := update_spec _ _ _ _ p1
      refine ⟨m, e, m1, fun k => ?_, fun g hg => (m3 g hg).trans (p2 g hg)⟩
      rw [m2, waits_of hd b1, d2]; simp
    | true =>
      rw [if_neg (by simp), if_neg hd, b1]
      simp only []
      obtain ⟨d1, d2⟩ := put_fine l hl _ b2
      obtain ⟨p1, p2⟩ := pre_store n f (h.weak f) _ hp (put l (a :: b)) d1 hx ho (.inl hf)
      obtain ⟨m, e, m1, m2, m3⟩ := update_spec _ _ _ _ p1
      refine ⟨m, e, m1, fun k => ?_, fun g hg => (m3 g hg).trans (p2 g hg)⟩
      rw [m2, waits_of hd b1, d2]; simp

/-- Nothing is registered anew. -/
structure Less (s t : St) : Prop where
  heap : ∀ g, g ∈ t.heap → g ∈ s.heap
  us : t.usable = s.usable
  want : ∀ g, (t.fd g).want.any = true → (s.fd g).want.any = true
  kern : ∀ g, (t.fd g).want.any = true → t.kern g = s.kern g

theorem Less.refl (s : St) : Less s s := ⟨fun _ h => h, rfl, fun _ h => h, fun _ _ => rfl⟩

theorem Less.trans {s t u : St} (a : Less s t) (b : Less t u) : Less s u :=
  ⟨fun g h => a.heap g (b.heap g h), b.us.trans a.us, fun g h => a.want g (b.want g h),
    fun g h => (b.kern g h).trans (a.kern g (b.want g h))⟩

theorem less_remove (s : St) (hr : Refs s) (f : Nat) : Less s (LS.Epoll.removeOld s f) := by
  obtain ⟨a, _, c⟩ := LS.Epoll.removeOld_spec s hr f
  refine ⟨fun g h => ?_, a.usable, fun g h => by rw [a.want] at h; exact h, fun g _ => by rw [a.kern]⟩
  rcases c with ⟨e, _⟩ | ⟨p, _, _, e⟩
  · rw [e] at h; exact h
  · exact e.subset (List.mem_cons_of_mem _ h)

theorem less_put (s : St) (f : Nat) (r : Option Nat) (tm : Option Nat) (d : Nat) : Less s (s.put f ⟨tm, .zero, d, r⟩) := by
  by_cases hf : f < s.map.length
  · refine ⟨fun g h => h, rfl, fun g h => ?_, fun g _ => rfl⟩
    rw [LS.Epoll.fd_put _ _ _ _ hf] at h
    split at h
    · simp [Want.any, Want.zero] at h
    · exact h
  · rw [LS.Epoll.put_out _ _ _ hf]; exact .refl s

theorem less_expire (now : Nat) : ∀ (n : Nat) (s : St), Refs s → Less s (LS.Epoll.expire now n s).2.1
  | 0, s, _ => .refl s
  | n + 1, s, hr => by
    cases hh : s.heap with
    | nil => simp only [LS.Epoll.expire, hh]; exact .refl s
    | cons o t =>
      simp only [LS.Epoll.expire, hh]
      have h1 := less_remove s hr o
      have h2 := (LS.Epoll.removeOld_spec s hr o).2.1
      split
      · split
        · exact h1.trans (less_put _ _ _ _ _)
        · split
          · exact h1
          · exact h1.trans (less_expire now n _ h2)
      · exact .refl s

theorem less_answer (s : St) (hr : Refs s) (tm : Option Nat) (k : Kern) :
    Less s (LS.Epoll.answer s tm k).2 ∧
      ∀ f fl d t, LS.Epoll.answer s tm k = (.event f fl d, t) → (s.fd f).want.any = true ∨ f ∈ s.heap := by
  cases k with
  | intr => exact ⟨.refl s, fun f fl d t h => by simp [LS.Epoll.answer] at h⟩
  | fail => exact ⟨.refl s, fun f fl d t h => by simp [LS.Epoll.answer] at h⟩
  | pipe =>
    exact ⟨⟨fun _ h => h, rfl, fun _ h => h, fun _ _ => rfl⟩, fun f fl d t h => by simp [LS.Epoll.answer] at h⟩
  | over x =>
    unfold LS.Epoll.answer
    simp only []
    split
    · exact ⟨.refl s, fun f fl d t h => by simp at h⟩
    · cases hh : s.heap with
      | nil => exact ⟨.refl s, fun f fl d t h => by simp at h⟩
      | cons o t =>
        refine ⟨(less_remove s hr o).trans (less_put _ _ _ _ _), fun f fl d t h => ?_⟩
        simp only [Prod.mk.injEq, LS.Epoll.Res.event.injEq] at h
        rw [← h.1.1]; exact .inr (List.mem_cons_self ..)
  | ev f e =>
    unfold LS.Epoll.answer
    simp only []
    have hr' : Refs ({ s with kern := fun x => if x = f then some ⟨false, false, false, false, false⟩ else s.kern x } : St) := hr
    have h1 := less_remove _ hr' f
    have hs := (LS.Epoll.removeOld_spec _ hr' f).1
    have hw : ((LS.Epoll.removeOld ({ s with kern := fun x => if x = f then some ⟨false, false, false, false, false⟩ else s.kern x } : St) f).fd f).want = (s.fd f).want := hs.want f
    split
    · next hx =>
      refine ⟨?_, fun f' fl d t h => ?_⟩
      · have h2 : Less _ ((LS.Epoll.removeOld ({ s with kern := fun x => if x = f then some ⟨false, false, false, false, false⟩ else s.kern x } : St) f).put f { (LS.Epoll.removeOld ({ s with kern := fun x => if x = f then some ⟨false, false, false, false, false⟩ else s.kern x } : St) f).fd f with want := .zero }) :=
          h1.trans (less_put ..)
        refine ⟨h2.heap, h2.us, h2.want, fun g hg => ?_⟩
        have := h2.kern g hg
        rw [this]
        show (if g = f then _ else s.kern g) = s.kern g
        rw [if_neg]
        intro e; subst e
        rw [LS.Epoll.fd_put, if_pos rfl] at hg
        · simp [Want.any, Want.zero] at hg
        · refine Nat.lt_of_not_le (fun hle => ?_)
          have : ((LS.Epoll.removeOld ({ s with kern := fun x => if x = g then some ⟨false, false, false, false, false⟩ else s.kern x } : St) g).fd g) = .new := by
            simp [St.fd, List.getD, hle]
          rw [this] at hx; simp [LS.Epoll.Fd.new, Want.any, Want.zero] at hx
      · simp only [Prod.mk.injEq, LS.Epoll.Res.event.injEq] at h
        rw [← h.1.1, ← hw]; exact .inl hx
    · next hx =>
      refine ⟨⟨h1.heap, h1.us, h1.want, fun g hg => ?_⟩, fun f' fl d t h => by simp at h⟩
      rw [h1.kern g hg]
      show (if g = f then _ else s.kern g) = s.kern g
      rw [if_neg]
      intro e; subst e; exact hx hg

theorem less_turn (s : St) (hr : Refs s) (tm : Option Nat) (now : Nat) (k : Kern) :
    Less s (LS.Epoll.turn s tm now k).2 ∧
      ∀ f fl d t, LS.Epoll.turn s tm now k = (.event f fl d, t) → (s.fd f).want.any = true ∨ f ∈ s.heap := by
  have h1 := less_expire now (s.heap.length + 1) s hr
  have h2 := LS.Epoll.expire_spec now (s.heap.length + 1) s hr
  unfold LS.Epoll.turn
  rcases he : LS.Epoll.expire now (s.heap.length + 1) s with ⟨_ | ⟨o, d⟩, t1, p⟩
  · rw [he] at h1
    have hq := h2.2 t1 p he
    obtain ⟨a, b⟩ := less_answer t1 hq.refs tm k
    refine ⟨Less.trans h1 a, fun f fl d t h => ?_⟩
    rcases b f fl d t h with h | h
    · exact .inl (h1.want f h)
    · exact .inr (h1.heap f h)
  · rw [he] at h1
    refine ⟨h1, fun f fl d' t h => ?_⟩
    simp only [Prod.mk.injEq, LS.Epoll.Res.event.injEq] at h
    rw [← h.1.1]; exact .inl (h2.1 o d t1 p he).2.1

theorem less_wait (tm : Option Nat) : ∀ (ks : List (Nat × Kern)) (s : St), Refs s →
    Less s (LS.Epoll.wait tm ks s).2 ∧
      ∀ f fl d t, LS.Epoll.wait tm ks s = (.event f fl d, t) → (s.fd f).want.any = true ∨ f ∈ s.heap
  | [], s, _ => ⟨.refl s, fun f fl d t h => by simp [LS.Epoll.wait] at h⟩
  | (now, k) :: ks, s, hr => by
    have h1 := less_turn s hr tm now k
    have h2 := LS.Epoll.turn_spec s hr tm now k
    rcases he : LS.Epoll.turn s tm now k with ⟨r, s1⟩
    rw [he] at h1
    unfold LS.Epoll.wait
    rw [he]
    by_cases hm : r = .more
    · subst hm
      have hq := h2.2 _ _ he (by simp)
      obtain ⟨a, b⟩ := less_wait tm ks s1 hq.refs
      refine ⟨h1.1.trans a, fun f fl d t h => ?_⟩
      rcases b f fl d t h with h | h
      · exact .inl (h1.1.want f h)
      · exact .inr (h1.1.heap f h)
    · split
      · next heq => simp only [Prod.mk.injEq] at heq; exact absurd heq.1 hm
      · next heq =>
        refine ⟨h1.1, fun f fl d t h => h1.2 f fl d t h⟩

theorem or_any (a b : Want) : (or' a b).any = (a.any || b.any) := by
  cases a; cases b; simp only [or', Want.any]; grind

theorem masks_any (ls : List Lst) : ∀ (w : Want), w.any = true → (ls.foldl (fun w e => or' w e.mask) w).any = true := by
  induction ls with
  | nil => intro w h; exact h
  | cons l ls ih => intro w h; exact ih _ (by rw [or_any, h]; rfl)

/-- The invariant after `wait`, but for the descriptor that is told. -/
theorem wait_inv (n : Net) (h : Inv n) (p : St) (x : Nat) (hr : Refs p) (hl : Less n.poll p)
    (hd : ∀ g, (p.fd g).data = (n.poll.fd g).data)
    (hs : ∀ g, g + 1 ≠ x → (p.fd g).tm = (n.poll.fd g).tm ∧ (p.fd g).want = (n.poll.fd g).want) :
    Inv' { n with poll := p } x := by
  refine ⟨hr, fun f => by show p.usable f = true; rw [hl.us]; exact h.us f, h.fr, h.pos, ?_, ?_, ?_, ?_⟩
  · intro f _ hf
    show (p.fd f).data ≠ 0
    rw [hd]; exact h.heap f (by omega) (hl.heap f hf)
  · intro f hx hf
    have hf' : (p.fd f).data = 0 := hf
    show (p.fd f).want = .zero
    rw [(hs f hx).2]; exact h.idle f (by omega) (by rw [← hd]; exact hf')
  · intro f hx hf
    have hf' : (p.fd f).data ≠ 0 := hf
    rw [hd] at hf'
    obtain ⟨l, t, b1, b2, b3⟩ := h.busy f (by omega) hf'
    refine ⟨l, t, ?_, b2, ?_⟩
    · show n.mem (p.fd f).data = _
      rw [hd]; exact b1
    · refine ⟨fun a b e => (hs f hx).2.trans (b3.want a b e), fun a b e => (hs f hx).1.trans (b3.tm a b e), fun a b e => ?_⟩
      refine (hl.kern f ?_).trans (b3.kern a b e)
      rw [(hs f hx).2, b3.want a b e]
      refine masks_any b a.mask (b2.1 a ?_)
      rw [e]; exact List.mem_cons_self ..
  · intro f g _ _ h1 h2
    have h1' : (p.fd f).data ≠ 0 := h1
    have h2' : (p.fd f).data = (p.fd g).data := h2
    rw [hd] at h1' h2'; rw [hd] at h2'
    exact h.inj f g (by omega) (by omega) h1' h2'

theorem filter_fine (q : Lst → Bool) (ls : List Lst) (h : Fine ls) : Fine (ls.filter q) :=
  ⟨fun l hl => h.1 l (List.mem_filter.1 hl).1, (List.filter_sublist.map _).nodup h.2⟩

/-- What a turn of the loop does. -/
theorem work_spec (n : Net) (h : Inv n) (ks : List (Nat × Kern)) (now : Nat) :
    Inv (work n ks now).2.2 ∧
    (∀ f fl d p, LS.Epoll.wait none ks n.poll = (.event f fl d, p) →
      (work n ks now).1 = .ok ∧ (work n ks now).2.1 = ((waits n f).filter (hit fl now)).map (call fl) ∧
      waits (work n ks now).2.2 f = (waits n f).filter (fun l => !hit fl now l) ∧
      ∀ g, g ≠ f → waits (work n ks now).2.2 g = waits n g) ∧
    ((∀ f fl d p, LS.Epoll.wait none ks n.poll ≠ (.event f fl d, p)) →
      (work n ks now).1 ≠ .ub ∧ (work n ks now).2.1 = [] ∧ ∀ g, waits (work n ks now).2.2 g = waits n g) := by
  have hw := LS.Epoll.wait_spec none ks n.poll h.refs
  have hl := less_wait none ks n.poll h.refs
  rcases he : LS.Epoll.wait none ks n.poll with ⟨r, p⟩
  rw [he] at hl
  have hlp : Less n.poll p := hl.1
  by_cases hx : ∃ f fl d, r = .event f fl d
  · obtain ⟨f, fl, d, rfl⟩ := hx
    obtain ⟨⟨u, q, _, q2, q3, q4⟩, _⟩ := hw.1 f fl d p he
    have hfd : ∀ g, p.fd g = if g = f then { u.fd f with want := .zero } else u.fd g := by
      intro g; rw [q4]; exact LS.Epoll.fd_put u f _ g q2
    have hdat : ∀ g, (p.fd g).data = (n.poll.fd g).data := by
      intro g; rw [hfd]; split
      · next e => rw [e]; exact q.data f
      · exact q.data g
    have hrp : Refs p := by rw [q4]; exact q.refs.zero f _ rfl
    have hi := wait_inv n h p (f + 1) hrp hlp hdat (fun g hg => by
      rw [hfd, if_neg (by omega)]; exact ⟨q.tm g, q.want g⟩)
    have hdf : d = (n.poll.fd f).data := by rw [q3, q.data]
    have hd0 : (n.poll.fd f).data ≠ 0 := by
      rcases hl.2 f fl d p rfl with hx | hx
      · intro e
        rw [h.idle f (by omega) e] at hx; simp [Want.any, Want.zero] at hx
      · exact h.heap f (by omega) hx
    obtain ⟨a, b, b1, b2, b3⟩ := h.busy f (by omega) hd0
    obtain ⟨p1, p2⟩ := pre_store { n with poll := p } f hi d (by rw [hdf]; exact h.pos _ (by rw [b1]; simp))
      ((a :: b).filter (fun l => !hit fl now l)) (filter_fine _ _ b2)
      (fun x hx hm => by
        obtain ⟨g, hg⟩ := h.own x hm
        refine ⟨g, fun e => hx (by rw [hdf, ← hg, e]), ?_⟩
        show (p.fd g).data = x
        rw [hdat]; exact hg)
      (fun g hg e => by
        have e' : (p.fd g).data = d := e
        rw [hdat, hdf] at e'
        exact hg (h.inj f g (by omega) (by omega) hd0 e'.symm).symm)
      (.inr (by show f < p.map.length; rw [q4]; simpa using q2))
    obtain ⟨m, e, m1, m2, m3⟩ := update_spec _ _ _ _ p1
    have hwk : work n ks now = (.ok, ((waits n f).filter (hit fl now)).map (call fl), m) := by
      have hmem : ({ n with poll := p } : Net).mem d = some (a :: b) := by rw [hdf]; exact b1
      unfold work
      rw [he]
      simp only [event]
      rw [if_neg (by rw [hdf]; exact hd0)]
      rw [hmem]
      simp only []
      rw [e, waits_of hd0 b1]
    rw [hwk]
    refine ⟨m1, fun f' fl' d' p' h' => ?_, fun hn => absurd rfl (hn f fl d p)⟩
    simp only [Prod.mk.injEq, LS.Epoll.Res.event.injEq] at h'
    obtain ⟨⟨rfl, rfl, rfl⟩, rfl⟩ := h'
    refine ⟨rfl, rfl, by rw [m2, waits_of hd0 b1], fun g hg => ?_⟩
    rw [m3 g hg, p2 g hg]
    unfold waits
    rw [data_eq, data_eq]
    show (if (p.fd g).data = 0 then [] else (n.mem (p.fd g).data).getD []) = _
    rw [hdat]
  · have hq := hw.2 r p he (fun f fl d e => hx ⟨f, fl, d, e⟩)
    have hi := wait_inv n h p 0 hq.refs hlp hq.data (fun g _ => ⟨hq.tm g, hq.want g⟩)
    have hI : Inv { n with poll := p } := ⟨hi, fun d hd => by
      obtain ⟨f, hf⟩ := h.own d hd
      exact ⟨f, by show (p.fd f).data = d; rw [hq.data]; exact hf⟩⟩
    have hwt : ∀ g, waits { n with poll := p } g = waits n g := by
      intro g
      unfold waits
      rw [data_eq, data_eq]
      show (if (p.fd g).data = 0 then [] else (n.mem (p.fd g).data).getD []) = _
      rw [hq.data]
    have hwk : (work n ks now).1 ≠ .ub ∧ (work n ks now).2 = ([], { n with poll := p }) := by
      unfold work
      rw [he]
      cases r with
      | event f fl d => exact absurd ⟨f, fl, d, rfl⟩ hx
      | exn => exact ⟨by simp, rfl⟩
      | timeout => exact ⟨by simp, rfl⟩
      | woken _ => exact ⟨by simp, rfl⟩
      | more => exact ⟨by simp, rfl⟩
    rw [hwk.2]
    refine ⟨hI, fun f fl d p' h' => ?_, fun _ => ⟨hwk.1, rfl, hwt⟩⟩
    simp only [Prod.mk.injEq] at h'
    exact absurd ⟨f, fl, d, h'.1⟩ hx

/-- Requests for descriptors that are never refused. -/
def Good (ops : List Op) : Prop := ∀ l f, Op.req l f ∈ ops → f ≤ 1024

theorem init_inv : Inv init := by
  have hf : ∀ f, init.poll.fd f = .new := fun f => by simp [init, LS.Epoll.init, St.fd]
  refine ⟨⟨fun i hi => by simp [init, LS.Epoll.init] at hi, fun _ => rfl, by decide, fun d h => absurd rfl h, ?_, ?_, ?_, ?_⟩,
    fun d h => absurd rfl h⟩
  · intro f _ h; simp [init, LS.Epoll.init] at h
  · intro f _ _; rw [hf]; rfl
  · intro f _ h; rw [hf] at h; exact absurd rfl h
  · intro f g _ _ h; rw [hf] at h; exact absurd rfl h

theorem inv_run (ops : List Op) (hg : Good ops) : Inv (run ops) := by
  have : ∀ (l : List Op) (n : Net), Inv n → Good l → Inv (l.foldl step n) := by
    intro l
    induction l with
    | nil => intro n h _; exact h
    | cons o l ih =>
      intro n h hl
      refine ih _ ?_ (fun a f ha => hl a f (List.mem_cons_of_mem _ ha))
      cases o with
      | req a f =>
        obtain ⟨m, e, m1, _⟩ := request_spec n h a f (hl a f (List.mem_cons_self ..))
        show Inv (request n a f).2
        rw [e]; exact m1
      | work ks now => exact (work_spec n h ks now).1
  exact this ops init init_inv hg

/-- C149: a request. The observer waits for the descriptor with the new flags and the new time, or not at all when the flags
are zero; everyone else waits as before. -/
theorem C149_request_partial (ops : List Op) (hg : Good ops) (l : Lst) (f : Nat) (hf : f ≤ 1024) :
    ∃ m, request (run ops) l f = (.ok, m) ∧
      (∀ k, k ∈ waits m f ↔ (k = l ∧ l.mask ≠ ⟨false, false, false⟩) ∨ k ∈ waits (run ops) f ∧ k.obs ≠ l.obs) ∧
      ∀ g, g ≠ f → waits m g = waits (run ops) g := by
  obtain ⟨m, e, _, m2, m3⟩ := request_spec (run ops) (inv_run ops hg) l f hf
  refine ⟨m, e, fun k => ?_, m3⟩
  have : l.mask.any = true ↔ l.mask ≠ ⟨false, false, false⟩ := by
    rcases l.mask with ⟨a, b, c⟩
    cases a <;> cases b <;> cases c <;> decide
  rw [m2 k, this]

example : waits (run [.req ⟨1, some 9, ⟨true, false, false⟩⟩ 3, .req ⟨2, none, ⟨false, true, false⟩⟩ 3,
      .req ⟨1, some 4, ⟨false, false, true⟩⟩ 3, .req ⟨5, none, ⟨true, true, true⟩⟩ 4]) 3 =
    [⟨1, some 4, ⟨false, false, true⟩⟩, ⟨2, none, ⟨false, true, false⟩⟩] := by decide +kernel

/-- C149: a turn of the loop with an event: called are those, each once, who wait for a flag that is told or whose time is
over; they wait no more, the others wait on. -/
theorem C149_event_partial (ops : List Op) (hg : Good ops) (ks : List (Nat × Kern)) (now f : Nat) (fl : Want) (d : Nat)
    (p : St) (h : LS.Epoll.wait none ks (run ops).poll = (.event f fl d, p)) :
    ∃ cs m, work (run ops) ks now = (.ok, cs, m) ∧
      (∀ o w, (o, w) ∈ cs ↔ ∃ l ∈ waits (run ops) f, l.obs = o ∧
        w = ⟨fl.inp && l.mask.inp, fl.out && l.mask.out, fl.exc && l.mask.exc⟩ ∧
        (w ≠ ⟨false, false, false⟩ ∨ ∃ t, l.tm = some t ∧ t < now)) ∧
      (cs.map (·.1)).Nodup ∧
      (∀ l, l ∈ waits m f ↔ l ∈ waits (run ops) f ∧ ∀ w, (l.obs, w) ∉ cs) ∧
      ∀ g, g ≠ f → waits m g = waits (run ops) g := by
  have hi := inv_run ops hg
  obtain ⟨_, w2, _⟩ := work_spec (run ops) hi ks now
  obtain ⟨e1, e2, e3, e4⟩ := w2 f fl d p h
  have hfine : Fine (waits (run ops) f) := by
    by_cases hd : ((run ops).poll.fd f).data = 0
    · rw [waits_none hd]; exact ⟨by simp, by simp⟩
    · obtain ⟨a, b, b1, b2, _⟩ := hi.busy f (by omega) hd
      rw [waits_of hd b1]; exact b2
  have hhit : ∀ l : Lst, hit fl now l = true ↔
      ((⟨fl.inp && l.mask.inp, fl.out && l.mask.out, fl.exc && l.mask.exc⟩ : Want) ≠ ⟨false, false, false⟩ ∨
        ∃ t, l.tm = some t ∧ t < now) := by
    intro l
    have e1 : expired l.tm now = true ↔ ∃ t, l.tm = some t ∧ t < now := by
      cases l.tm <;> simp [expired]
    have e2 : ∀ w : Want, w.any = true ↔ w ≠ ⟨false, false, false⟩ := by
      rintro ⟨a, b, c⟩
      cases a <;> cases b <;> cases c <;> decide
    unfold hit and'
    rw [Bool.or_eq_true, e1, e2]
  have hmem : ∀ o w, (o, w) ∈ (work (run ops) ks now).2.1 ↔ ∃ l ∈ waits (run ops) f, l.obs = o ∧
        w = ⟨fl.inp && l.mask.inp, fl.out && l.mask.out, fl.exc && l.mask.exc⟩ ∧
        (w ≠ ⟨false, false, false⟩ ∨ ∃ t, l.tm = some t ∧ t < now) := by
    intro o w
    rw [e2, List.mem_map]
    constructor
    · rintro ⟨l, hl, e⟩
      obtain ⟨a, b⟩ := List.mem_filter.1 hl
      simp only [call, and', Prod.mk.injEq] at e
      exact ⟨l, a, e.1, e.2.symm, by rw [← e.2]; exact (hhit l).1 b⟩
    · rintro ⟨l, a, b, c, d⟩
      refine ⟨l, List.mem_filter.2 ⟨a, (hhit l).2 (by rw [← c]; exact d)⟩, ?_⟩
      rw [c, ← b]; rfl
  refine ⟨(work (run ops) ks now).2.1, (work (run ops) ks now).2.2, ?_, hmem, ?_, ?_, e4⟩
  · rw [← e1]
  · rw [e2, List.map_map]
    exact (List.filter_sublist.map _).nodup hfine.2
  · intro l
    rw [e3, List.mem_filter]
    refine and_congr_right (fun hl => ?_)
    constructor
    · intro hn w hw
      rw [hmem] at hw
      obtain ⟨k, k1, k2, k3, k4⟩ := hw
      have : k = l := by
        have hnd := hfine.2
        unfold List.Nodup at hnd
        rw [List.pairwise_map, List.pairwise_iff_getElem] at hnd
        obtain ⟨i, i1, i2⟩ := List.getElem_of_mem k1
        obtain ⟨j, j1, j2⟩ := List.getElem_of_mem hl
        rcases Nat.lt_trichotomy i j with h | h | h
        · exact absurd (by rw [i2, j2]; exact k2) (hnd i j i1 j1 h)
        · subst h; rw [← i2, ← j2]
        · exact absurd (by rw [i2, j2]; exact k2.symm) (hnd j i j1 i1 h)
      subst this
      rw [k3] at k4
      rw [(hhit k).2 k4] at hn; simp at hn
    · intro hn
      cases hh : hit fl now l with
      | false => rfl
      | true => exact absurd ((hmem l.obs _).2 ⟨l, hl, rfl, rfl, (hhit l).1 hh⟩) (hn _)

example : (work (run [.req ⟨1, some 9, ⟨true, false, false⟩⟩ 3, .req ⟨2, none, ⟨true, true, false⟩⟩ 3,
      .req ⟨6, some 40, ⟨false, true, false⟩⟩ 3, .req ⟨7, some 8, ⟨false, true, false⟩⟩ 3])
      [(5, .ev 3 ⟨true, false, false, false, true⟩)] 9).2.1 =
    [(1, ⟨true, false, false⟩), (2, ⟨true, false, false⟩), (7, ⟨false, false, false⟩)] := by decide +kernel

/-- C149: a turn of the loop without an event calls no one, and all wait on. No turn uses released memory. -/
theorem C149_quiet_partial (ops : List Op) (hg : Good ops) (ks : List (Nat × Kern)) (now : Nat)
    (h : ∀ f fl d p, LS.Epoll.wait none ks (run ops).poll ≠ (.event f fl d, p)) :
    (work (run ops) ks now).1 ≠ .ub ∧ (work (run ops) ks now).2.1 = [] ∧
      ∀ g, waits (work (run ops) ks now).2.2 g = waits (run ops) g :=
  (work_spec (run ops) (inv_run ops hg) ks now).2.2 h

example : (work (run [.req ⟨1, some 9, ⟨true, false, false⟩⟩ 3]) [(5, .intr), (6, .pipe)] 9).1 = .ok ∧
    waits (work (run [.req ⟨1, some 9, ⟨true, false, false⟩⟩ 3]) [(5, .intr), (6, .pipe)] 9).2.2 3 =
      [⟨1, some 9, ⟨true, false, false⟩⟩] := by decide +kernel

theorem masks_bits (ls : List Lst) : ∀ (w : Want),
    ((ls.foldl (fun w e => or' w e.mask) w).inp = true ↔ w.inp = true ∨ ∃ l ∈ ls, l.mask.inp = true) ∧
    ((ls.foldl (fun w e => or' w e.mask) w).out = true ↔ w.out = true ∨ ∃ l ∈ ls, l.mask.out = true) ∧
    ((ls.foldl (fun w e => or' w e.mask) w).exc = true ↔ w.exc = true ∨ ∃ l ∈ ls, l.mask.exc = true) := by
  induction ls with
  | nil => intro w; simp
  | cons l ls ih =>
    intro w
    obtain ⟨a, b, c⟩ := ih (or' w l.mask)
    rw [List.foldl_cons, a, b, c]
    simp [or', or_assoc]

theorem lowest_spec (ls : List Lst) : ∀ (t : Option Nat),
    let m := ls.foldl (fun t e => if tmLess e.tm t then e.tm else t) t
    tmLess t m = false ∧ (∀ l ∈ ls, tmLess l.tm m = false) ∧ (m = t ∨ ∃ l ∈ ls, m = l.tm) := by
  induction ls with
  | nil => intro t; refine ⟨?_, by simp, .inl rfl⟩; cases t <;> simp [tmLess]
  | cons l ls ih =>
    intro t
    obtain ⟨a, b, c⟩ := ih (if tmLess l.tm t then l.tm else t)
    have hx : tmLess t (if tmLess l.tm t then l.tm else t) = false ∧ tmLess l.tm (if tmLess l.tm t then l.tm else t) = false := by
      split
      · next h => cases hl : l.tm <;> cases t <;> simp_all [tmLess]; omega
      · next h => exact ⟨by cases t <;> simp [tmLess], by simpa using h⟩
    refine ⟨LS.Epoll.tmLess_trans _ _ _ a hx.1, fun k hk => ?_, ?_⟩
    · rcases List.mem_cons.1 hk with rfl | hk
      · exact LS.Epoll.tmLess_trans _ _ _ a hx.2
      · exact b k hk
    · rcases c with c | ⟨k, k1, k2⟩
      · by_cases h : tmLess l.tm t = true
        · rw [if_pos h] at c
          exact .inr ⟨l, List.mem_cons_self .., by rw [List.foldl_cons, if_pos h]; exact c⟩
        · rw [if_neg h] at c
          exact .inl (by rw [List.foldl_cons, if_neg h]; exact c)
      · exact .inr ⟨k, List.mem_cons_of_mem _ k1, by rw [List.foldl_cons]; exact k2⟩

/-- C149: the descriptor is waited for, in the kernel, for exactly what its listeners wait for, till the earliest of their
times; each observer is one listener of it, none waits for nothing. -/
theorem C149_armed_partial (ops : List Op) (hg : Good ops) (f : Nat) (hw : waits (run ops) f ≠ []) :
    (∃ e, (run ops).poll.kern f = some e ∧ (e.inp = true ↔ ∃ l ∈ waits (run ops) f, l.mask.inp = true) ∧
      (e.out = true ↔ ∃ l ∈ waits (run ops) f, l.mask.out = true) ∧
      (e.pri = true ↔ ∃ l ∈ waits (run ops) f, l.mask.exc = true)) ∧
    ((run ops).poll.fd f).want.any = true ∧
    (∀ l ∈ waits (run ops) f, ∀ a, l.tm = some a → ∃ b, ((run ops).poll.fd f).tm = some b ∧ b ≤ a) ∧
    (∃ l ∈ waits (run ops) f, ((run ops).poll.fd f).tm = l.tm) ∧
    ((waits (run ops) f).map (·.obs)).Nodup ∧ ∀ l ∈ waits (run ops) f, l.mask ≠ ⟨false, false, false⟩ := by
  have hi := inv_run ops hg
  have hd : ((run ops).poll.fd f).data ≠ 0 := fun e => hw (waits_none e)
  obtain ⟨a, b, b1, b2, b3⟩ := hi.busy f (by omega) hd
  rw [waits_of hd b1, b3.want a b rfl, b3.tm a b rfl, b3.kern a b rfl]
  obtain ⟨m1, m2, m3⟩ := masks_bits b a.mask
  obtain ⟨l1, l2, l3⟩ := lowest_spec b a.tm
  refine ⟨⟨_, rfl, ?_, ?_, ?_⟩, masks_any b _ (b2.1 a (List.mem_cons_self ..)), ?_, ?_, b2.2, ?_⟩
  · refine m1.trans ?_; simp
  · refine m2.trans ?_; simp
  · refine m3.trans ?_; simp
  · intro l hl x hx
    have : tmLess l.tm (lowest a b) = false := by
      rcases List.mem_cons.1 hl with rfl | hl
      · exact l1
      · exact l2 l hl
    rw [hx] at this
    cases hm : lowest a b with
    | none => rw [hm] at this; simp [tmLess] at this
    | some y => rw [hm] at this; simp only [tmLess, decide_eq_false_iff_not] at this; exact ⟨y, rfl, by omega⟩
  · rcases l3 with h | ⟨l, h1, h2⟩
    · exact ⟨a, List.mem_cons_self .., h⟩
    · exact ⟨l, List.mem_cons_of_mem _ h1, h2⟩
  · intro l hl e
    have := b2.1 l hl
    rw [e] at this; exact absurd this (by decide)

example : (run [.req ⟨1, some 9, ⟨true, false, false⟩⟩ 3, .req ⟨2, some 4, ⟨false, true, false⟩⟩ 3]).poll.kern 3 =
    some ⟨true, true, false, true, true⟩ := by decide +kernel

/-- C149: a descriptor without listeners is not waited for, and has no time. -/
theorem C149_idle_partial (ops : List Op) (hg : Good ops) (f : Nat) (hw : waits (run ops) f = []) :
    ((run ops).poll.fd f).want = ⟨false, false, false⟩ ∧ f ∉ (run ops).poll.heap ∧ LS.Epoll.getData (run ops).poll f = 0 := by
  have hi := inv_run ops hg
  have hd : ((run ops).poll.fd f).data = 0 := by
    refine Decidable.byContradiction (fun h => ?_)
    obtain ⟨a, b, b1, _⟩ := hi.busy f (by omega) h
    rw [waits_of h b1] at hw; cases hw
  exact ⟨hi.idle f (by omega) hd, fun h => hi.heap f (by omega) h hd, by rw [data_eq]; exact hd⟩

example : waits (run [.req ⟨1, some 9, ⟨true, false, false⟩⟩ 3, .work [(10, .intr)] 10]) 3 = [] ∧
    (work (run [.req ⟨1, some 9, ⟨true, false, false⟩⟩ 3]) [(10, .intr)] 10).2.1 = [(1, ⟨false, false, false⟩)] := by
  decide +kernel

/-- C149: the memory. What is allocated is the record of one descriptor that has listeners. -/
theorem C149_memory_partial (ops : List Op) (hg : Good ops) (d : Nat) :
    ((run ops).mem d ≠ none ↔ ∃ f, waits (run ops) f ≠ [] ∧ LS.Epoll.getData (run ops).poll f = d) ∧
    (∀ f g, waits (run ops) f ≠ [] → LS.Epoll.getData (run ops).poll f = LS.Epoll.getData (run ops).poll g → f = g) := by
  have hi := inv_run ops hg
  constructor
  · constructor
    · intro h
      obtain ⟨f, hf⟩ := hi.own d h
      have hd : ((run ops).poll.fd f).data ≠ 0 := by rw [hf]; have := hi.pos d h; omega
      obtain ⟨a, b, b1, _⟩ := hi.busy f (by omega) hd
      exact ⟨f, by rw [waits_of hd b1]; simp, by rw [data_eq]; exact hf⟩
    · rintro ⟨f, h1, h2⟩
      have hd : ((run ops).poll.fd f).data ≠ 0 := fun e => h1 (waits_none e)
      obtain ⟨a, b, b1, _⟩ := hi.busy f (by omega) hd
      rw [data_eq] at h2
      rw [← h2, b1]; simp
  · intro f g h1 h2
    rw [data_eq, data_eq] at h2
    exact hi.inj f g (by omega) (by omega) (fun e => h1 (waits_none e)) h2

example : (run [.req ⟨1, none, ⟨true, false, false⟩⟩ 3, .req ⟨1, none, ⟨true, false, false⟩⟩ 4,
      .req ⟨1, none, ⟨false, false, false⟩⟩ 3]).mem 1 = none ∧
    ((run [.req ⟨1, none, ⟨true, false, false⟩⟩ 3, .req ⟨1, none, ⟨true, false, false⟩⟩ 4,
      .req ⟨1, none, ⟨false, false, false⟩⟩ 3]).mem 2).isSome = true := by decide +kernel

/-- The descriptor is closed behind the back of the listener. -/
def closed (n : Net) (f : Nat) : Net := { n with poll := LS.Epoll.close n.poll f }

/-- C149: a request for a descriptor that `epoll_ctl` refuses (a plain file, or closed meanwhile) leaves the descriptor with
the record that is released: the next request uses it. -/
theorem C149_dangling_violated :
    let n := closed init 3
    let m := (request n ⟨1, none, ⟨true, false, false⟩⟩ 3).2
    (request n ⟨1, none, ⟨true, false, false⟩⟩ 3).1 = .exn ∧ LS.Epoll.getData m.poll 3 = 1 ∧ m.mem 1 = none ∧
    (request m ⟨2, none, ⟨true, false, false⟩⟩ 3).1 = .ub ∧ (request m ⟨1, none, ⟨false, false, false⟩⟩ 3).1 = .ub := by
  decide +kernel

/-- C149: the same with a time: the loop uses the released record when the time is over. -/
theorem C149_expired_violated :
    (work (request (closed init 3) ⟨1, some 5, ⟨true, false, false⟩⟩ 3).2 [(6, .intr)] 6).1 = .ub := by decide +kernel

/-- C149: the descriptor is closed while an observer waits: when its time is over it is not called, ever. -/
theorem C149_lost_violated :
    let n := closed (run [.req ⟨1, some 5, ⟨true, false, false⟩⟩ 3]) 3
    (work n [(6, .intr)] 6).1 = .exn ∧ (work n [(6, .intr)] 6).2.1 = [] ∧ waits (work n [(6, .intr)] 6).2.2 3 = [] := by
  decide +kernel

/-- C149: the wait for a closed descriptor is cancelled: the record stays allocated and no one has it. -/
theorem C149_leak_violated :
    let m := (request (closed (run [.req ⟨1, none, ⟨true, false, false⟩⟩ 3]) 3) ⟨1, none, ⟨false, false, false⟩⟩ 3).2
    m.mem 1 = some [] ∧ LS.Epoll.getData m.poll 3 = 0 ∧ ∀ f < 3, LS.Epoll.getData m.poll f = 0 := by decide +kernel

/-- C149: the other side hangs up (EPOLLHUP alone): no one is called, and the descriptor is waited for as before, so that the
kernel tells the same again at once. -/
theorem C149_hup_violated :
    let n := run [.req ⟨1, none, ⟨true, false, false⟩⟩ 3]
    let r := work n [(0, .ev 3 ⟨false, false, false, false, true⟩)] 0
    r.1 = .ok ∧ r.2.1 = [] ∧ r.2.2.poll.kern 3 = n.poll.kern 3 ∧ waits r.2.2 3 = waits n 3 := by decide +kernel

/-- C149: the same for an error of the connection: who waits for input or output is not called. -/
theorem C149_error_violated :
    let n := run [.req ⟨1, none, ⟨true, true, false⟩⟩ 3]
    let r := work n [(0, .ev 3 ⟨false, false, false, true, false⟩)] 0
    r.1 = .ok ∧ r.2.1 = [] ∧ r.2.2.poll.kern 3 = n.poll.kern 3 ∧ waits r.2.2 3 = waits n 3 := by decide +kernel

/-- C149: a descriptor is closed and its number is used again: the observer of the old connection is called for an event of
the new one. -/
theorem C149_stale_violated :
    let n := closed (run [.req ⟨1, none, ⟨true, false, false⟩⟩ 3]) 3
    let m := (request { n with poll := LS.Epoll.open' n.poll 3 } ⟨2, none, ⟨true, false, false⟩⟩ 3).2
    (work m [(0, .ev 3 ⟨true, false, false, false, false⟩)] 0).2.1 =
      [(1, ⟨true, false, false⟩), (2, ⟨true, false, false⟩)] := by decide +kernel

/-- C149: a high descriptor is refused; of a resource with several sockets the ones before it stay registered. -/
theorem C149_high_violated :
    (request init ⟨1, none, ⟨true, false, false⟩⟩ 2000).1 = .exn ∧
    (requests init ⟨1, none, ⟨true, false, false⟩⟩ [3, 2000]).1 = .exn ∧
    waits (requests init ⟨1, none, ⟨true, false, false⟩⟩ [3, 2000]).2 3 = [⟨1, none, ⟨true, false, false⟩⟩] := by
  decide +kernel

/-- C149: several sockets. -/
theorem C149_sockets_partial (l : Lst) : ∀ (fs : List Nat) (ops : List Op), Good ops → (∀ f ∈ fs, f ≤ 1024) →
    ∃ m, requests (run ops) l fs = (.ok, m) ∧
      (∀ f ∈ fs, ∀ k, k ∈ waits m f ↔ (k = l ∧ l.mask ≠ ⟨false, false, false⟩) ∨ k ∈ waits (run ops) f ∧ k.obs ≠ l.obs) ∧
      ∀ g, g ∉ fs → waits m g = waits (run ops) g
  | [], ops, _, _ => ⟨run ops, rfl, by simp, fun _ _ => rfl⟩
  | f :: fs, ops, hg, hf => by
    obtain ⟨m, e, m2, m3⟩ := C149_request_partial ops hg l f (hf f (List.mem_cons_self ..))
    have hr : run (ops ++ [.req l f]) = m := by
      have : run (ops ++ [.req l f]) = (request (run ops) l f).2 := by unfold run; rw [List.foldl_append]; rfl
      rw [this, e]
    have hg' : Good (ops ++ [.req l f]) := by
      intro a b h
      rcases List.mem_append.1 h with h | h
      · exact hg a b h
      · have : Op.req a b = Op.req l f := by simpa using h
        cases this; exact hf f (List.mem_cons_self ..)
    obtain ⟨m', e', n2, n3⟩ := C149_sockets_partial l fs (ops ++ [.req l f]) hg' (fun g h => hf g (List.mem_cons_of_mem _ h))
    rw [hr] at e' n2 n3
    refine ⟨m', by rw [requests, e]; exact e', fun g hgm k => ?_, fun g hgm => ?_⟩
    · by_cases h1 : g ∈ fs
      · rw [n2 g h1 k]
        by_cases h2 : g = f
        · subst h2
          rw [m2 k]
          constructor
          · rintro (h | ⟨h | h, h'⟩)
            · exact .inl h
            · exact .inl h
            · exact .inr h
          · rintro (h | h)
            · exact .inl h
            · exact .inr ⟨.inr h, h.2⟩
        · rw [m3 g h2]
      · rcases List.mem_cons.1 hgm with rfl | h
        · rw [n3 g h1]; exact m2 k
        · exact absurd h h1
    · rw [n3 g (fun h => hgm (List.mem_cons_of_mem _ h)), m3 g (fun h => hgm (by rw [h]; exact List.mem_cons_self ..))]

example : waits (requests init ⟨1, none, ⟨true, false, false⟩⟩ [3, 4, 3]).2 4 = [⟨1, none, ⟨true, false, false⟩⟩] := by
  decide +kernel

end LS.NetListen
