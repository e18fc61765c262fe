import Verif.ClusterStep
/-
C50, C103: results about the cluster allocator.
-/
namespace LS.Cluster

variable {cf : Cfg} {s s' : St}

/-- C50 — blocks handed out and not yet returned never overlap, at any time and whatever the
users write to their blocks; no block is handed out twice.  Partial: under the rules of use
`strict`. -/
theorem C50_disjoint_partial (hst : cf.strict = true) (hz0 : 0 < cf.sz) (hz : cf.sz < 255) (r : Reach cf s) :
    s.out.Nodup ∧ ∀ o o', o ∈ s.out → o' ∈ s.out → o ≠ o' →
      o.addr + o.size ≤ o'.addr ∨ o'.addr + o'.size ≤ o.addr := by
  obtain ⟨F, L, I⟩ := inv_reach hst hz0 hz r
  refine ⟨nodup_of_map I.outN, ?_⟩
  intro o o' ho ho' hne
  obtain ⟨a1, a2, c, i, b1, b2, b3, b4, b5⟩ := I.outI o ho
  obtain ⟨a1', a2', c', i', b1', b2', b3', b4', b5'⟩ := I.outI o' ho'
  have hs := bksz_ge a1 a2
  have hs' := bksz_ge a1' a2'
  have := I.sep b1 b1' b3 b3' (by
    intro e1 e2
    apply hne
    apply inj_of_nodup I.outN ho ho'
    rw [e1] at b1
    rw [b1] at b1'; cases b1'
    rw [b5, b5', e1, e2])
  omega

/-- C50 — a block lies in memory obtained from the underlying allocator and not returned to it,
behind the header of its cluster. -/
theorem C50_inside_partial (hst : cf.strict = true) (hz0 : 0 < cf.sz) (hz : cf.sz < 255) (r : Reach cf s)
    {o : Blk} (ho : o ∈ s.out) :
    ∃ b c, s.cl b = some c ∧ b + cf.sz ≤ o.addr ∧ o.addr + o.size ≤ b + (cf.hdr + c.cnt * c.bk) := by
  obtain ⟨F, L, I⟩ := inv_reach hst hz0 hz r
  obtain ⟨a1, a2, c, i, b1, b2, b3, b4, b5⟩ := I.outI o ho
  refine ⟨o.owner, c, b1, ?_, ?_⟩
  · rw [b5]; unfold adr Cfg.hdr; omega
  · have := mul_succ_le (k := c.bk) b3
    have := bksz_ge a1 a2
    rw [b5]; unfold adr; omega

/-- C50 — no correct request is refused: there is no exception, null pointer or division by
zero. -/
theorem C50_no_error_partial (hst : cf.strict = true) (hz0 : 0 < cf.sz) (hz : cf.sz < 255) (r : Reach cf s) :
    s.err = false ∧ s.ub = false := by
  obtain ⟨F, L, I⟩ := inv_reach hst hz0 hz r
  exact I.good

/-- C50 — an allocation hands out one new block of the size asked for. -/
theorem C50_alloc_partial (hst : cf.strict = true) (hz0 : 0 < cf.sz) (hz : cf.sz < 255) (r : Reach cf s)
    {fuel sz nb : Nat} (h0 : 0 < sz) (h1 : sz ≤ 2 ^ 55)
    (hf : s.head (bksz sz) = 0 → Fresh cf s nb (cf.hdr + nextN cf s (bksz sz) * bksz sz)) :
    ∃ o, (alloc cf fuel s sz nb).out = o :: s.out ∧ o.size = sz := by
  obtain ⟨F, L, I⟩ := inv_reach hst hz0 hz r
  obtain ⟨F', L', o, _, q1, q2⟩ := I.alloc hz (fuel := fuel) (nb := nb) h0 h1 hf
  exact ⟨o, q1, q2⟩

/-! ### A returned block is available again -/

/-- Allocations of `sz` bytes one after another, none of which needs new memory. -/
inductive Run (cf : Cfg) (sz : Nat) : St → St → Prop
  | nil (s : St) : Run cf sz s s
  | cons {s s' : St} (nb fuel : Nat) (h : s.head (bksz sz) ≠ 0) (r : Run cf sz (alloc cf fuel s sz nb) s') : Run cf sz s s'

/-- Free blocks in the clusters of a list. -/
def total (F : Nat → List Nat) (l : List Nat) : Nat := (l.map fun b => (F b).length).sum

theorem total_upd {F : Nat → List Nat} {b : Nat} {t : List Nat} : ∀ {l : List Nat}, b ∉ l → total (upd F b t) l = total F l
  | [], _ => rfl
  | x :: l, h => by
    simp only [List.mem_cons, not_or] at h
    have ih := total_upd (F := F) (t := t) h.2
    simp only [total, List.map_cons, List.sum_cons] at ih ⊢
    rw [ih, upd_ne _ _ (Ne.symm h.1)]

theorem reuse {sz : Nat} (h0 : 0 < sz) (h1 : sz ≤ 2 ^ 55) : ∀ (m : Nat) (s : St) (F L : Nat → List Nat), Inv cf s F L →
    total F (L (bksz sz)) = m → ∀ b c i, s.cl b = some c → b ∈ L (bksz sz) → i ∈ F b →
    ∃ s', Run cf sz s s' ∧ (∃ o, o ∈ s'.out ∧ o.addr = adr cf b c.bk i ∧ o.size = sz) ∧ ∀ o, o ∈ s.out → o ∈ s'.out := by
  intro m
  induction m with
  | zero =>
    intro s F L I ht b c i hc hb hi
    exfalso
    obtain ⟨p, q, e⟩ := List.append_of_mem hb
    rw [e] at ht
    simp only [total, List.map_append, List.map_cons, List.sum_append, List.sum_cons] at ht
    have : (F b).length = 0 := by omega
    rw [List.length_eq_zero_iff] at this
    rw [this] at hi; cases hi
  | succ m ih =>
    intro s F L I ht b c i hc hb hi
    have hh : s.head (bksz sz) ≠ 0 := by
      intro e
      rw [(I.head _).mp e] at hb; cases hb
    have hne : ∃ n, cntOf cf s (bksz sz) = some n ∧ 0 < n ∧ n ≤ 255 := by
      obtain ⟨c', e1, e2, _⟩ := (I.memL _ _).mp hb
      have := (I.pos _ _ e1).2.2.2.2
      rw [e2] at this
      cases e : s.next (bksz sz) with
      | none => exact absurd e this
      | some n => exact ⟨n, by simp [cntOf, e], I.nxt _ _ e⟩
    obtain ⟨n, en, en1⟩ := hne
    have ea : alloc cf 0 s sz 0 = take cf 0 { s with next := upd s.next (bksz sz) (some n) } (bksz sz) sz := by
      unfold alloc
      simp only [en]
      rw [if_neg hh]
    have I1 := I.next' (bk := bksz sz) (n := n) en1
    obtain ⟨c0, i0, t, lt, k1, k2, k3, k4, k5, k6, k7⟩ := I1.take (fuel := 0) h0 h1 rfl hh
    rw [← ea] at k5 k6 k7
    simp only at k1 k3 k4 k5 k6 k7
    have hnd := I.ndL (bksz sz)
    rw [k4, List.nodup_cons] at hnd
    by_cases hx : b = s.head (bksz sz) ∧ i = i0
    · obtain ⟨x1, x2⟩ := hx
      refine ⟨alloc cf 0 s sz 0, .cons 0 0 hh (.nil _), ⟨_, by rw [k5]; exact List.mem_cons_self .., ?_, rfl⟩, ?_⟩
      · rw [← x1] at k1
        rw [hc] at k1; cases k1
        rw [k2, x1, x2]
      · intro o ho; rw [k5]; exact List.mem_cons_of_mem _ ho
    · have hb' : b ∈ upd L (bksz sz) (if t = [] then lt else L (bksz sz)) (bksz sz) := by
        rw [upd_same]
        split
        · rename_i et
          rw [k4] at hb
          rcases List.mem_cons.mp hb with e | e
          · exfalso
            rw [e, k3, et] at hi
            have : i = i0 := by simpa using hi
            exact hx ⟨e, this⟩
          · exact e
        · exact hb
      have hi' : i ∈ upd F (s.head (bksz sz)) t b := by
        by_cases e : b = s.head (bksz sz)
        · rw [e, upd_same]
          rw [e, k3] at hi
          rcases List.mem_cons.mp hi with q | q
          · exact absurd ⟨e, q⟩ hx
          · exact q
        · rw [upd_ne _ _ e]; exact hi
      have htot : total (upd F (s.head (bksz sz)) t) (upd L (bksz sz) (if t = [] then lt else L (bksz sz)) (bksz sz)) = m := by
        rw [upd_same]
        have e0 : total F (L (bksz sz)) = t.length + 1 + total F lt := by
          rw [k4]; simp only [total, List.map_cons, List.sum_cons, k3, List.length_cons]
        split
        · rename_i et
          rw [total_upd hnd.1]
          rw [et] at e0
          simp only [List.length_nil] at e0
          omega
        · rw [k4]
          have : total (upd F (s.head (bksz sz)) t) (s.head (bksz sz) :: lt) = t.length + total F lt := by
            have q := total_upd (F := F) (t := t) hnd.1
            simp only [total, List.map_cons, List.sum_cons, upd_same] at q ⊢
            rw [q]
          rw [this]
          omega
      have hcl : ∃ c', (alloc cf 0 s sz 0).cl b = some c' ∧ c'.bk = bksz sz := by
        obtain ⟨c', q1, q2, _⟩ := (k7.memL _ _).mp hb'
        exact ⟨c', q1, q2⟩
      obtain ⟨c', q1, q2⟩ := hcl
      obtain ⟨s2, r1, ⟨o, o1, o2, o3⟩, r3⟩ := ih _ _ _ k7 htot b c' i q1 hb' hi'
      have hcb : c.bk = bksz sz := by
        obtain ⟨c'', p1, p2, _⟩ := (I.memL _ _).mp hb
        rw [hc] at p1; cases p1; exact p2
      refine ⟨s2, .cons 0 0 hh r1, ⟨o, o1, ?_, o3⟩, ?_⟩
      · rw [o2, q2, hcb]
      · intro o ho; exact r3 o (by rw [k5]; exact List.mem_cons_of_mem _ ho)

/-- C50 — a returned block is no more in use, all others stay, and some number of allocations
of the same size returns it again without new memory from the underlying allocator (also if
the release has given clusters back). -/
theorem C50_reuse_partial (hst : cf.strict = true) (hz0 : 0 < cf.sz) (hz : cf.sz < 255) (r : Reach cf s) {o : Blk}
    (ho : o ∈ s.out) {k : Option Nat} {fuel : Nat} (hk : Seek s (bksz o.size) o.addr k) :
    (dealloc cf fuel { s with out := s.out.erase o } o.addr o.size k).out = s.out.erase o ∧
    ∃ s', Run cf o.size (dealloc cf fuel { s with out := s.out.erase o } o.addr o.size k) s' ∧
      (∃ o', o' ∈ s'.out ∧ o'.addr = o.addr ∧ o'.size = o.size) ∧ ∀ o', o' ∈ s.out.erase o → o' ∈ s'.out := by
  obtain ⟨F, L, I⟩ := inv_reach hst hz0 hz r
  obtain ⟨a1, a2, c, i, b1, b2, b3, b4, b5⟩ := I.outI o ho
  rw [I.dealloc hz0 ho hk b1 b2 b3 b4 b5]
  obtain ⟨L', q, q1, _, q3, _, q5, _⟩ := (I.release ho b1 b3 b4 b5).checkEmpty (fuel := fuel) (bk := c.bk) (k := o.owner) (by
      rw [upd_same]; split
      · simp
      · rename_i hf; exact (I.memL _ _).mpr ⟨c, b1, rfl, hf⟩)
  have e : (released s o c i).cl o.owner = some { c with ff := i, used := c.used - 1 } := upd_same _ _ _
  rw [e] at q5
  rw [b2] at q1
  obtain ⟨s', r1, r2, r3⟩ := reuse a1 a2 _ _ _ _ q rfl o.owner _ i q5 q1 (by rw [upd_same]; simp)
  refine ⟨q3, s', r1, ?_, ?_⟩
  · obtain ⟨o', p1, p2, p3⟩ := r2
    exact ⟨o', p1, p2.trans b5.symm, p3⟩
  · intro o' ho'
    exact r3 o' (by rw [q3]; exact ho')

/-! ### Leaks -/

theorem marks_chain {nx : Nat → Nat} {cnt : Nat} (hn : cnt ≤ 255) : ∀ (l : List Nat) (k z : Nat) (use : Nat → Bool),
    Chain nx 255 z l → l.Nodup → (∀ x, x ∈ l → x < cnt ∧ use x = true) → l.length < k →
    ∃ u, marks nx cnt k z use = some u ∧ ∀ x, u x = (use x && decide (x ∉ l))
  | [], 0, _, _, _, _, _, h => absurd h (by simp)
  | [], k + 1, z, use, c, _, _, _ => by
    have c : z = 255 := c
    refine ⟨use, by simp [marks, c], by simp⟩
  | x :: l, 0, _, _, _, _, _, h => absurd h (by simp)
  | x :: l, k + 1, z, use, c, nd, h, hk => by
    obtain ⟨c1, c2, c3⟩ := c
    subst c1
    have hx := h z (by simp)
    rw [List.nodup_cons] at nd
    obtain ⟨u, u1, u2⟩ := marks_chain hn l k (nx z) (upd use z false) c3 nd.2 (by
      intro y hy
      have := h y (by simp [hy])
      refine ⟨this.1, ?_⟩
      have hyz : y ≠ z := fun e => nd.1 (e ▸ hy)
      rw [upd_ne _ _ hyz]
      exact this.2) (by simp only [List.length_cons] at hk; omega)
    refine ⟨u, ?_, ?_⟩
    · rw [marks, if_neg c2, if_neg (by omega), if_neg (by simp [hx.2])]
      exact u1
    · intro y
      rw [u2]
      by_cases e : y = z
      · subst e; rw [upd_same]; simp
      · rw [upd_ne _ _ e]; simp [e]

/-- C103 — the report of a cluster lists exactly the blocks which were not returned, each once.
Partial: under the rules of use `strict`. -/
theorem C103_leaks_partial (hst : cf.strict = true) (hz0 : 0 < cf.sz) (hz : cf.sz < 255) (r : Reach cf s)
    {b : Nat} {c : Clu} (hc : s.cl b = some c) :
    ∃ l, reportLeaks cf s b = some l ∧ l.Nodup ∧ ∀ a, a ∈ l ↔ ∃ o, o ∈ s.out ∧ o.owner = b ∧ o.addr = a := by
  obtain ⟨F, L, I⟩ := inv_reach hst hz0 hz r
  have hp := I.pos b c hc
  obtain ⟨u, u1, u2⟩ := marks_chain hp.2.2.2.1 (F b) (c.cnt + 1) c.ff (fun _ => true) (I.chF b c hc) (I.ndF b c hc)
    (fun x hx => ⟨I.ltF b c hc x hx, rfl⟩) (by have := I.used b c hc; omega)
  refine ⟨((List.range c.cnt).filter u).map (adr cf b c.bk), ?_, ?_, ?_⟩
  · simp only [reportLeaks, hc, u1, Option.map_some]
  · rw [List.nodup_iff_pairwise_ne, List.pairwise_map]
    have := List.Pairwise.filter u (List.nodup_range (n := c.cnt))
    exact this.imp (fun h e => h (adr_inj hp.2.1 e))
  · intro a
    rw [List.mem_map]
    constructor
    · rintro ⟨i, hi, e⟩
      rw [List.mem_filter, List.mem_range] at hi
      obtain ⟨h1, h2⟩ := hi
      rw [u2] at h2
      have h3 : i ∉ F b := by simpa using h2
      obtain ⟨o, o1, o2⟩ := I.outC b c i hc h1 h3
      refine ⟨o, o1, ?_, o2.trans e⟩
      obtain ⟨a1, a2, c', i', b1, b2, b3, b4, b5⟩ := I.outI o o1
      apply Decidable.byContradiction
      intro hne
      have := I.sep b1 hc b3 h1 (fun q => absurd q hne)
      have q1 := (I.pos _ _ b1).2.1
      rw [b5] at o2
      omega
    · rintro ⟨o, o1, o2, o3⟩
      obtain ⟨a1, a2, c', i', b1, b2, b3, b4, b5⟩ := I.outI o o1
      rw [o2, hc] at b1; cases b1
      rw [o2] at b4 b5
      refine ⟨i', ?_, by rw [← o3, b5]⟩
      rw [List.mem_filter, List.mem_range]
      refine ⟨b3, ?_⟩
      rw [u2]
      simp [b4]

/-- C103 — `clear` reports a leak if and only if a block was not returned. -/
theorem C103_clear_partial (hst : cf.strict = true) (hz0 : 0 < cf.sz) (hz : cf.sz < 255) (r : Reach cf s) :
    s.out = [] ↔ ∀ b c, s.cl b = some c → reportLeaks cf s b = some [] := by
  constructor
  · intro h b c hc
    obtain ⟨l, l1, _, l3⟩ := C103_leaks_partial hst hz0 hz r hc
    rw [l1]
    cases l with
    | nil => rfl
    | cons x l =>
      obtain ⟨o, ho, _⟩ := (l3 x).mp (by simp)
      rw [h] at ho; cases ho
  · intro h
    cases ho : s.out with
    | nil => rfl
    | cons o l =>
      exfalso
      obtain ⟨F, L, I⟩ := inv_reach hst hz0 hz r
      have hm : o ∈ s.out := by rw [ho]; simp
      obtain ⟨a1, a2, c, i, b1, _⟩ := I.outI o hm
      obtain ⟨l, l1, _, l3⟩ := C103_leaks_partial hst hz0 hz r b1
      rw [h _ _ b1] at l1; cases l1
      have := (l3 o.addr).mpr ⟨o, hm, rfl, rfl⟩
      cases this

/-! ### Disagreements -/

def lax : Cfg := ⟨64, false⟩
def tight : Cfg := ⟨64, true⟩

def m0 : Nat → Nat := fun _ => 0

/-- Five blocks of 12 bytes. -/
def five (cf : Cfg) : St :=
  alloc cf 9 (alloc cf 9 (alloc cf 9 (alloc cf 9 (alloc cf 9 (.init m0) 12 1000) 12 0) 12 0) 12 0) 12 0

theorem five_reach (cf : Cfg) (h : cf = lax ∨ cf = tight) : Reach cf (five cf) := by
  rcases h with h | h <;> subst h
  all_goals
    refine .step (.step (.step (.step (.step (.init m0) (.alloc 12 1000 9 (by decide) (by decide) ?_)) (.alloc 12 0 9 (by decide) (by decide) ?_)) (.alloc 12 0 9 (by decide) (by decide) ?_)) (.alloc 12 0 9 (by decide) (by decide) ?_)) (.alloc 12 0 9 (by decide) (by decide) ?_)
    · intro _; exact ⟨by decide, by intro b c h; cases h⟩
    all_goals intro h; exact absurd h (by decide)

/-- Concrete case under the rules of use: five blocks of 12 bytes fill the first cluster. -/
example : Reach tight (five tight) ∧ (five tight).out.map Blk.addr = [1128, 1112, 1096, 1080, 1064] ∧
    (five tight).head 16 = 0 ∧ reportLeaks tight (five tight) 1000 = some [1064, 1080, 1096, 1112, 1128] :=
  ⟨five_reach _ (Or.inr rfl), by decide, by decide, by decide⟩

/-- The full claim: blocks handed out do not overlap. -/
def Claim (cf : Cfg) : Prop :=
  ∀ s, Reach cf s → s.out.Nodup ∧ ∀ o o', o ∈ s.out → o' ∈ s.out → o ≠ o' →
    o.addr + o.size ≤ o'.addr ∨ o'.addr + o'.size ≤ o.addr

/-- C50 — `AllocCluster::dealloc` (clusterAlloc.cpp:62) computes the index of the block with the
size that was not rounded: of five blocks of 12 bytes, the fourth is returned through its owner;
the next allocation hands out the fifth, which is in use. -/
theorem C50_owner_violated : ¬ Claim lax := by
  intro h
  have r1 : Reach lax (deallocOwner lax 9 { five lax with out := (five lax).out.erase ⟨1112, 12, 1000⟩ } 1000 1112 12) :=
    .step (five_reach lax (Or.inl rfl)) (.deallocOwner ⟨1112, 12, 1000⟩ 9 (by decide) (by intro h; cases h))
  have r2 := Reach.step r1 (.alloc 12 0 9 (by decide) (by decide) (fun h => absurd h (by decide)))
  have h1 := (h _ r2).1
  exact absurd h1 (by decide)

/-- C50 — a block obtained through a cluster (clusterAlloc.h:84-87) may lie in another cluster:
its return to the owner is refused. -/
theorem C50_via_violated : ∃ s s', Reach lax s ∧ s.err = false ∧ (∃ o, o ∈ s.out ∧
    s' = deallocOwner lax 9 { s with out := s.out.erase o } o.owner o.addr o.size) ∧ s'.err = true := by
  have r1 : Reach lax (alloc lax 9 (.init m0) 1000 1000) :=
    .step (.init m0) (.alloc 1000 1000 9 (by decide) (by decide) (fun _ => ⟨by decide, by intro b c h; cases h⟩))
  have r2 := Reach.step r1 (.allocVia 1000 1000 9000 9 rfl (by decide) (by decide) (by decide) (fun _ => ⟨by decide, by
    intro b c h
    by_cases e : b = 1000
    · subst e
      have : c = ⟨1000, 1, 255, 1⟩ := by
        have q : (alloc lax 9 (.init m0) 1000 1000).cl 1000 = some ⟨1000, 1, 255, 1⟩ := by rfl
        rw [q] at h; exact (Option.some.inj h).symm
      subst this
      right; decide
    · exfalso
      have q : (alloc lax 9 (.init m0) 1000 1000).cl b = none := by
        show upd (upd (fun _ => none) 1000 _) 1000 _ b = none
        rw [upd_ne _ _ e, upd_ne _ _ e]
      rw [q] at h; cases h⟩))
  refine ⟨_, _, r2, by decide, ⟨⟨9064, 1000, 1000⟩, by decide, rfl⟩, by decide⟩

/-- C50 — a request of zero bytes divides by zero (clusterAlloc.cpp:34-40, clusterAlloc.h:183). -/
theorem C50_zero_violated : (alloc lax 9 (.init m0) 0 1000).ub = true := by decide

end LS.Cluster
