import Verif.ClusterInv
/-
Every operation of the cluster allocator keeps the invariant.
-/
namespace LS.Cluster

variable {cf : Cfg} {s : St} {F L : Nat → List Nat}

/-- A write outside of the links of free blocks changes nothing. -/
theorem Inv.write (I : Inv cf s F L) {a : Nat} (v : Nat)
    (h : ∀ b c i, s.cl b = some c → i ∈ F b → adr cf b c.bk i ≠ a) :
    Inv cf { s with mem := upd s.mem a v } F L := by
  refine ⟨I.pos, ?_, I.ndF, I.ltF, I.used, I.chL, I.ndL, I.memL, I.disj, I.outI, I.outN, I.outC, I.nxt, I.good⟩
  intro b c hc
  exact Chain.congr (fun i hi => upd_ne _ _ (h b c i hc hi)) (I.chF b c hc)

theorem Inv.usable (I : Inv cf s F L) {a : Nat} (h : Usable cf s a) :
    ∀ b c i, s.cl b = some c → i ∈ F b → adr cf b c.bk i ≠ a := by
  intro b c i hc hi e
  have hlt := I.ltF b c hc i hi
  rcases h with ⟨o, ho, h1, h2⟩ | h
  · obtain ⟨a1, a2, c', i', b1, b2, b3, b4, b5⟩ := I.outI o ho
    have hs := bksz_ge a1 a2
    have := I.sep hc b1 hlt b3 (by
      intro e1 e2; subst e1; subst e2; exact b4 hi)
    have := (I.pos b c hc).2.1
    rw [b5] at h1 h2
    omega
  · apply h b c hc
    have := mul_succ_le (k := c.bk) hlt
    have := (I.pos b c hc).2.1
    unfold adr at e
    omega

theorem links_other (mem : Nat → Nat) (b bk a : Nat) : ∀ n, (∀ i, i < n → a ≠ adr cf b bk i) →
    links cf mem b bk n a = mem a
  | 0, _ => rfl
  | n + 1, h => by
    rw [links, upd_ne _ _ (h n (by omega))]
    exact links_other mem b bk a n (fun i hi => h i (by omega))

theorem adr_inj {b bk i j : Nat} (h0 : 0 < bk) (h : adr cf b bk i = adr cf b bk j) : i = j := by
  unfold adr at h
  have : i * bk = j * bk := by omega
  exact Nat.eq_of_mul_eq_mul_right h0 this

theorem links_val (mem : Nat → Nat) (b bk : Nat) (h0 : 0 < bk) : ∀ n i, i < n →
    links cf mem b bk n (adr cf b bk i) = i + 1
  | 0, i, h => absurd h (by omega)
  | n + 1, i, h => by
    rw [links]
    by_cases e : i = n
    · subst e; rw [upd_same]
    · rw [upd_ne _ _ (fun q => e (adr_inj h0 q))]
      exact links_val mem b bk h0 n i (by omega)

theorem ctor_other (mem : Nat → Nat) (b bk a n : Nat) (hn : 0 < n) (h : ∀ i, i < n → a ≠ adr cf b bk i) :
    ctor cf mem b bk n a = mem a := by
  unfold ctor
  rw [upd_ne _ _ (h (n - 1) (by omega))]
  exact links_other mem b bk a _ (fun i hi => h i (by omega))

theorem ctor_chain (mem : Nat → Nat) (b bk n : Nat) (h0 : 0 < bk) (hn : n ≤ 255) :
    ∀ k, k + 1 ≤ n → Chain (fun i => ctor cf mem b bk n (adr cf b bk i)) 255 (n - 1 - k) (List.range' (n - 1 - k) (k + 1))
  | 0, h => by
    refine ⟨rfl, by omega, ?_⟩
    show ctor cf mem b bk n (adr cf b bk (n - 1 - 0)) = 255
    unfold ctor
    exact upd_same _ _ _
  | k + 1, h => by
    refine ⟨rfl, by omega, ?_⟩
    have ih := ctor_chain mem b bk n h0 hn k (by omega)
    have e1 : ctor cf mem b bk n (adr cf b bk (n - 1 - (k + 1))) = n - 1 - k := by
      unfold ctor
      rw [upd_ne _ _ (fun q => by have := adr_inj h0 q; omega), links_val mem b bk h0 _ _ (by omega)]
      omega
    have e2 : n - 1 - (k + 1) + 1 = n - 1 - k := by omega
    show Chain _ 255 (ctor cf mem b bk n (adr cf b bk (n - 1 - (k + 1)))) (List.range' (n - 1 - (k + 1) + 1) (k + 1))
    rw [e1, e2]
    exact ih

/-- A new cluster. -/
theorem Inv.create (I : Inv cf s F L) {bk n b : Nat} (h0 : 0 < bk) (hn : 0 < n) (hn2 : n ≤ 255)
    (hf : Fresh cf s b (cf.hdr + n * bk)) (hh : s.head bk = 0) :
    Inv cf (create cf s bk n b) (upd F b (List.range n)) (upd L bk [b]) := by
  have hcb : s.cl b = none := by
    cases e : s.cl b with
    | none => rfl
    | some c =>
      have h1 := hf.2 b c e
      have h2 := I.pos b c e
      have h3 : 0 < n * bk := Nat.mul_pos hn h0
      have h4 : 0 < c.cnt * c.bk := Nat.mul_pos h2.2.2.1 h2.2.1
      omega
  have hL := (I.head bk).mp hh
  have cas : ∀ {b' c}, upd s.cl b (some ⟨bk, n, 0, 0⟩) b' = some c →
      (b' = b ∧ c = ⟨bk, n, 0, 0⟩) ∨ (b' ≠ b ∧ s.cl b' = some c) := by
    intro b' c h
    by_cases e : b' = b
    · subst e; rw [upd_same] at h; cases h; exact Or.inl ⟨rfl, rfl⟩
    · rw [upd_ne _ _ e] at h; exact Or.inr ⟨e, h⟩
  have hnx : ∀ k, upd s.next bk (some (if n < 255 then n + 1 else n)) k = none → s.next k = none := by
    intro k h
    by_cases e : k = bk
    · subst e; rw [upd_same] at h; cases h
    · rwa [upd_ne _ _ e] at h
  refine ⟨?_, ?_, ?_, ?_, ?_, ?_, ?_, ?_, ?_, ?_, I.outN, ?_, ?_, I.good⟩
  · intro b' c h
    rcases cas h with ⟨e1, e2⟩ | ⟨e1, e2⟩
    · subst e1; subst e2
      refine ⟨hf.1, h0, hn, hn2, ?_⟩
      show upd s.next bk _ bk ≠ none
      rw [upd_same]; simp
    · have := I.pos b' c e2
      exact ⟨this.1, this.2.1, this.2.2.1, this.2.2.2.1, fun h => this.2.2.2.2 (hnx _ h)⟩
  · intro b' c h
    rcases cas h with ⟨e1, e2⟩ | ⟨e1, e2⟩
    · subst e1; subst e2
      rw [upd_same]
      have := ctor_chain (cf := cf) s.mem b' bk n h0 hn2 (n - 1) (by omega)
      rw [show n - 1 - (n - 1) = 0 from by omega, show n - 1 + 1 = n from by omega, ← List.range_eq_range'] at this
      exact this
    · rw [upd_ne _ _ e1]
      refine Chain.congr ?_ (I.chF b' c e2)
      intro i hi
      have hlt := I.ltF b' c e2 i hi
      apply ctor_other _ _ _ _ _ hn
      intro j hj q
      have h1 := hf.2 b' c e2
      have h2 := mul_succ_le (k := c.bk) hlt
      have h3 := mul_succ_le (k := bk) hj
      unfold adr at q
      have := (I.pos b' c e2).2.1
      omega
  · intro b' c h
    rcases cas h with ⟨e1, e2⟩ | ⟨e1, e2⟩
    · subst e1; rw [upd_same]; exact List.nodup_range
    · rw [upd_ne _ _ e1]; exact I.ndF b' c e2
  · intro b' c h i
    rcases cas h with ⟨e1, e2⟩ | ⟨e1, e2⟩
    · subst e1; subst e2; rw [upd_same]; exact fun h => List.mem_range.mp h
    · rw [upd_ne _ _ e1]; exact I.ltF b' c e2 i
  · intro b' c h
    rcases cas h with ⟨e1, e2⟩ | ⟨e1, e2⟩
    · subst e1; subst e2; rw [upd_same]; simp
    · rw [upd_ne _ _ e1]; exact I.used b' c e2
  · intro k
    show Chain (upd s.ll b 0) 0 (upd s.head bk b k) (upd L bk [b] k)
    by_cases e : k = bk
    · subst e; rw [upd_same, upd_same]
      exact ⟨rfl, by have := hf.1; omega, upd_same _ _ _⟩
    · rw [upd_ne _ _ e, upd_ne _ _ e]
      apply Chain.upd _ (I.chL k)
      intro hm
      obtain ⟨c, hc, _⟩ := (I.memL k b).mp hm
      rw [hcb] at hc; cases hc
  · intro k
    by_cases e : k = bk
    · subst e; rw [upd_same]; simp
    · rw [upd_ne _ _ e]; exact I.ndL k
  · intro k b'
    show b' ∈ upd L bk [b] k ↔ ∃ c, upd s.cl b (some ⟨bk, n, 0, 0⟩) b' = some c ∧ c.bk = k ∧ c.ff ≠ 255
    by_cases eb : b' = b
    · subst eb
      rw [upd_same]
      by_cases e : k = bk
      · subst e; rw [upd_same]; simp
      · rw [upd_ne _ _ e, I.memL]
        constructor
        · rintro ⟨c, hc, _⟩; rw [hcb] at hc; cases hc
        · rintro ⟨c, hc, e2, _⟩; cases hc; exact absurd e2.symm e
    · rw [upd_ne _ _ eb, ← I.memL]
      by_cases e : k = bk
      · subst e; rw [upd_same, hL]; simp [eb]
      · rw [upd_ne _ _ e]
  · intro b1 c1 b2 c2 h1 h2 hne
    rcases cas h1 with ⟨e1, e2⟩ | ⟨e1, e2⟩
    · rcases cas h2 with ⟨f1, f2⟩ | ⟨f1, f2⟩
      · exact absurd (e1.trans f1.symm) hne
      · subst e1; subst e2
        have := hf.2 b2 c2 f2
        show b1 + cf.hdr + n * bk ≤ b2 ∨ _
        omega
    · rcases cas h2 with ⟨f1, f2⟩ | ⟨f1, f2⟩
      · subst f1; subst f2
        have := hf.2 b1 c1 e2
        show _ ∨ b2 + cf.hdr + n * bk ≤ b1
        omega
      · exact I.disj b1 c1 b2 c2 e2 f2 hne
  · intro o ho
    obtain ⟨a1, a2, c, i, b1, b2, b3, b4, b5⟩ := I.outI o ho
    have hne : o.owner ≠ b := by intro e; rw [e, hcb] at b1; cases b1
    refine ⟨a1, a2, c, i, ?_, b2, b3, ?_, b5⟩
    · show upd s.cl b _ o.owner = some c
      rw [upd_ne _ _ hne]; exact b1
    · rw [upd_ne _ _ hne]; exact b4
  · intro b' c i h hi hF
    rcases cas h with ⟨e1, e2⟩ | ⟨e1, e2⟩
    · subst e1; subst e2; rw [upd_same] at hF; exact absurd (List.mem_range.mpr hi) hF
    · rw [upd_ne _ _ e1] at hF; exact I.outC b' c i e2 hi hF
  · intro k m h
    have h : upd s.next bk (some (if n < 255 then n + 1 else n)) k = some m := h
    by_cases e : k = bk
    · subst e; rw [upd_same] at h
      have h := Option.some.inj h
      split at h <;> omega
    · rw [upd_ne _ _ e] at h; exact I.nxt k m h

theorem head_cons {nx : Nat → Nat} {h : Nat} {l : List Nat} (c : Chain nx 0 h l) (hh : h ≠ 0) :
    ∃ t, l = h :: t ∧ Chain nx 0 (nx h) t := by
  cases l with
  | nil => exact absurd c hh
  | cons x t => obtain ⟨c1, _, c3⟩ := c; exact ⟨t, by rw [c1], by rw [c1]; exact c3⟩

/-- A block is handed out from a cluster of the list. -/
theorem Inv.take (I : Inv cf s F L) {fuel bk sz : Nat} (h0 : 0 < sz) (h1 : sz ≤ 2 ^ 55) (hb : bk = bksz sz)
    (hh : s.head bk ≠ 0) :
    ∃ c i t lt, s.cl (s.head bk) = some c ∧ c.bk = bk ∧ F (s.head bk) = i :: t ∧ L bk = s.head bk :: lt ∧
      (take cf fuel s bk sz).out = ⟨adr cf (s.head bk) bk i, sz, s.head bk⟩ :: s.out ∧
      (take cf fuel s bk sz).mem = s.mem ∧
      Inv cf (take cf fuel s bk sz) (upd F (s.head bk) t) (upd L bk (if t = [] then lt else L bk)) := by
  obtain ⟨lt, hL, hLt⟩ := head_cons (I.chL bk) hh
  have hm : s.head bk ∈ L bk := by rw [hL]; simp
  obtain ⟨c, hc, hcb, hcf⟩ := (I.memL bk _).mp hm
  generalize hbe : s.head bk = b at *
  have hF := I.chF b c hc
  have hnF := I.ndF b c hc
  have hlF := I.ltF b c hc
  have hu := I.used b c hc
  have hp := I.pos b c hc
  cases hFb : F b with
  | nil => exact absurd ((I.ff hc).mpr hFb) hcf
  | cons i t =>
    rw [hFb] at hF hnF hlF hu
    obtain ⟨f1, f2, f3⟩ := hF
    rw [List.nodup_cons] at hnF
    rw [List.length_cons] at hu
    have hi : i < c.cnt := hlF i (by simp)
    -- state before the list is changed
    have e1 : Cluster.take cf fuel s bk sz =
        (let s1 : St := { s with cl := upd s.cl b (some { c with ff := s.mem (adr cf b bk i), used := c.used + 1 }), out := ⟨adr cf b bk i, sz, b⟩ :: s.out }
         if s.mem (adr cf b bk i) = 255 then { s1 with head := upd s.head bk (s.ll b) } else s1) := by
      unfold Cluster.take
      simp only [hbe, hc]
      rw [if_neg hcf, f1, Nat.mod_eq_of_lt (by omega)]
      rw [checkEmpty_id (by simp [isEmpty, upd_same])]
      simp [isFull, upd_same]
    have ht : s.mem (adr cf b bk i) = 255 ↔ t = [] := by
      have f3 : Chain (fun i => s.mem (adr cf b c.bk i)) 255 (s.mem (adr cf b c.bk i)) t := f3
      rw [hcb] at f3
      cases t with
      | nil => simp only [Chain] at f3; simp [f3]
      | cons x t => simp only [Chain] at f3; simp [f3.1, f3.2.1]
    refine ⟨c, i, t, lt, hc, hcb, rfl, hL, ?_, ?_, ?_⟩
    · rw [e1]; simp only; split <;> rfl
    · rw [e1]; simp only; split <;> rfl
    -- common parts
    have cas : ∀ {b' c'}, upd s.cl b (some { c with ff := s.mem (adr cf b bk i), used := c.used + 1 }) b' = some c' →
        (b' = b ∧ c' = { c with ff := s.mem (adr cf b bk i), used := c.used + 1 }) ∨ (b' ≠ b ∧ s.cl b' = some c') := by
      intro b' c' h
      by_cases e : b' = b
      · subst e; rw [upd_same] at h; cases h; exact Or.inl ⟨rfl, rfl⟩
      · rw [upd_ne _ _ e] at h; exact Or.inr ⟨e, h⟩
    have main : ∀ hd : Nat → Nat, (∀ k, Chain s.ll 0 (hd k) (upd L bk (if t = [] then lt else L bk) k)) →
        Inv cf { s with head := hd, cl := upd s.cl b (some { c with ff := s.mem (adr cf b bk i), used := c.used + 1 }), out := ⟨adr cf b bk i, sz, b⟩ :: s.out }
          (upd F b t) (upd L bk (if t = [] then lt else L bk)) := by
      intro hd hchain
      have hnL := I.ndL bk
      rw [hL, List.nodup_cons] at hnL
      refine ⟨?_, ?_, ?_, ?_, ?_, hchain, ?_, ?_, ?_, ?_, ?_, ?_, I.nxt, I.good⟩
      · intro b' c' h
        rcases cas h with ⟨e1, e2⟩ | ⟨e1, e2⟩
        · subst e1; subst e2; exact hp
        · exact I.pos b' c' e2
      · intro b' c' h
        rcases cas h with ⟨e1, e2⟩ | ⟨e1, e2⟩
        · subst e1; subst e2; rw [upd_same]
          show Chain (fun j => s.mem (adr cf b' c.bk j)) 255 (s.mem (adr cf b' bk i)) t
          rw [← hcb]; exact f3
        · rw [upd_ne _ _ e1]; exact I.chF b' c' e2
      · intro b' c' h
        rcases cas h with ⟨e1, e2⟩ | ⟨e1, e2⟩
        · subst e1; rw [upd_same]; exact hnF.2
        · rw [upd_ne _ _ e1]; exact I.ndF b' c' e2
      · intro b' c' h j
        rcases cas h with ⟨e1, e2⟩ | ⟨e1, e2⟩
        · subst e1; subst e2; rw [upd_same]; exact fun h => hlF j (by simp [h])
        · rw [upd_ne _ _ e1]; exact I.ltF b' c' e2 j
      · intro b' c' h
        rcases cas h with ⟨e1, e2⟩ | ⟨e1, e2⟩
        · subst e1; subst e2; rw [upd_same]
          show c.used + 1 + t.length = c.cnt
          omega
        · rw [upd_ne _ _ e1]; exact I.used b' c' e2
      · intro k
        by_cases e : k = bk
        · subst e; rw [upd_same]; split
          · exact hnL.2
          · exact I.ndL k
        · rw [upd_ne _ _ e]; exact I.ndL k
      · intro k b'
        show b' ∈ upd L bk (if t = [] then lt else L bk) k ↔ ∃ c', upd s.cl b _ b' = some c' ∧ c'.bk = k ∧ c'.ff ≠ 255
        by_cases eb : b' = b
        · subst eb
          rw [upd_same]
          by_cases e : k = bk
          · subst e; rw [upd_same]
            by_cases e2 : t = []
            · rw [if_pos e2]
              constructor
              · intro h; exact absurd h hnL.1
              · rintro ⟨c', h, _, h3⟩; cases h; exact absurd (ht.mpr e2) h3
            · rw [if_neg e2]
              constructor
              · intro _; exact ⟨_, rfl, hcb, fun h => e2 (ht.mp h)⟩
              · intro _; exact hm
          · rw [upd_ne _ _ e, I.memL]
            constructor
            · rintro ⟨c', h, h2, _⟩; rw [hc] at h; cases h; exact absurd (h2.symm.trans hcb) e
            · rintro ⟨c', h, h2, _⟩; cases h; exact absurd (h2.symm.trans hcb) e
        · rw [upd_ne _ _ eb, ← I.memL]
          by_cases e : k = bk
          · subst e; rw [upd_same]; split
            · rw [hL]; simp [eb]
            · exact Iff.rfl
          · rw [upd_ne _ _ e]
      · intro b1 c1 b2 c2 g1 g2 hne
        rcases cas g1 with ⟨e1, e2⟩ | ⟨e1, e2⟩
        · rcases cas g2 with ⟨f1, f2⟩ | ⟨f1, f2⟩
          · exact absurd (e1.trans f1.symm) hne
          · subst e1; subst e2; exact I.disj b1 c b2 c2 hc f2 hne
        · rcases cas g2 with ⟨f1, f2⟩ | ⟨f1, f2⟩
          · subst f1; subst f2; exact I.disj b1 c1 b2 c e2 hc hne
          · exact I.disj b1 c1 b2 c2 e2 f2 hne
      · intro o ho
        rcases List.mem_cons.mp ho with e | ho
        · subst e
          refine ⟨h0, h1, { c with ff := s.mem (adr cf b bk i), used := c.used + 1 }, i, ?_, ?_, hi, ?_, ?_⟩
          · exact upd_same _ _ _
          · exact hcb.trans hb
          · show i ∉ upd F b t b
            rw [upd_same]; exact hnF.1
          · show adr cf b bk i = adr cf b c.bk i
            rw [hcb]
        · obtain ⟨a1, a2, c', i', b1, b2, b3, b4, b5⟩ := I.outI o ho
          by_cases e : o.owner = b
          · rw [e, hc] at b1; cases b1
            refine ⟨a1, a2, { c with ff := s.mem (adr cf b bk i), used := c.used + 1 }, i', ?_, b2, b3, ?_, b5⟩
            · show upd s.cl b _ o.owner = _
              rw [e, upd_same]
            · rw [e, upd_same]
              rw [e, hFb] at b4
              exact fun h => b4 (by simp [h])
          · refine ⟨a1, a2, c', i', ?_, b2, b3, ?_, b5⟩
            · show upd s.cl b _ o.owner = _
              rw [upd_ne _ _ e]; exact b1
            · rw [upd_ne _ _ e]; exact b4
      · show ((⟨adr cf b bk i, sz, b⟩ :: s.out : List Blk).map Blk.addr).Nodup
        rw [List.map_cons, List.nodup_cons]
        refine ⟨?_, I.outN⟩
        intro h
        obtain ⟨o, ho, e⟩ := List.mem_map.mp h
        obtain ⟨a1, a2, c', i', b1, b2, b3, b4, b5⟩ := I.outI o ho
        have := I.sep hc b1 hi b3 (by
          intro q1 q2; subst q1; subst q2; rw [hFb] at b4; exact b4 (by simp))
        have q1 := hp.2.1
        have q2 := (I.pos _ _ b1).2.1
        have e : o.addr = adr cf b bk i := e
        rw [b5, ← hcb] at e
        omega
      · intro b' c' j h hj hF
        rcases cas h with ⟨e1, e2⟩ | ⟨e1, e2⟩
        · subst e1; subst e2; rw [upd_same] at hF
          by_cases e : j = i
          · subst e; exact ⟨_, List.mem_cons_self .., by show adr cf b' bk j = adr cf b' c.bk j; rw [hcb]⟩
          · obtain ⟨o, ho, e2⟩ := I.outC b' c j hc hj (by rw [hFb]; simp [e, hF])
            exact ⟨o, List.mem_cons_of_mem _ ho, e2⟩
        · rw [upd_ne _ _ e1] at hF
          obtain ⟨o, ho, e2⟩ := I.outC b' c' j e2 hj hF
          exact ⟨o, List.mem_cons_of_mem _ ho, e2⟩
    rw [e1]
    by_cases e : t = []
    · simp only [ht.mpr e, if_true]
      rw [← ht.mpr e]
      apply main
      intro k
      by_cases ek : k = bk
      · subst ek; rw [upd_same, upd_same, if_pos e]; exact hLt
      · rw [upd_ne _ _ ek, upd_ne _ _ ek]; exact I.chL k
    · simp only [mt ht.mp e, if_false]
      refine main s.head ?_
      intro k
      by_cases ek : k = bk
      · subst ek; rw [upd_same, if_neg e]; exact I.chL k
      · rw [upd_ne _ _ ek]; exact I.chL k

/-! ## Release -/

theorem nodup_of_map {α : Type} {f : α → Nat} : ∀ {l : List α}, (l.map f).Nodup → l.Nodup
  | [], _ => List.nodup_nil
  | a :: l, nd => by
    rw [List.map_cons, List.nodup_cons] at nd
    exact List.nodup_cons.mpr ⟨fun h => nd.1 (List.mem_map.mpr ⟨a, h, rfl⟩), nodup_of_map nd.2⟩

theorem inj_of_nodup {α : Type} {f : α → Nat} : ∀ {l : List α}, (l.map f).Nodup → ∀ {x y}, x ∈ l → y ∈ l →
    f x = f y → x = y
  | [], _, _, _, hx, _, _ => by cases hx
  | a :: l, nd, x, y, hx, hy, e => by
    rw [List.map_cons, List.nodup_cons] at nd
    rcases List.mem_cons.mp hx with p | p <;> rcases List.mem_cons.mp hy with q | q
    · rw [p, q]
    · exact absurd (List.mem_map.mpr ⟨y, q, by rw [← e, p]⟩) nd.1
    · exact absurd (List.mem_map.mpr ⟨x, p, by rw [e, q]⟩) nd.1
    · exact inj_of_nodup nd.2 p q e

/-- State after the release of the block `o`, index `i` of the cluster `b`, before
`checkEmpty`. -/
def released (s : St) (o : Blk) (c : Clu) (i : Nat) : St :=
  { s with out := s.out.erase o, mem := upd s.mem o.addr c.ff, cl := upd s.cl o.owner (some { c with ff := i, used := c.used - 1 }), ll := if c.ff = 255 then upd s.ll o.owner (s.head c.bk) else s.ll, head := if c.ff = 255 then upd s.head c.bk o.owner else s.head }

theorem Inv.release (I : Inv cf s F L) {o : Blk} (ho : o ∈ s.out) {c : Clu} {i : Nat}
    (hc : s.cl o.owner = some c) (hi : i < c.cnt) (hiF : i ∉ F o.owner)
    (ha : o.addr = adr cf o.owner c.bk i) :
    Inv cf (released s o c i) (upd F o.owner (i :: F o.owner))
      (upd L c.bk (if c.ff = 255 then o.owner :: L c.bk else L c.bk)) := by
  obtain ⟨addr, size, b⟩ := o
  simp only at hc hiF ha
  have hp := I.pos b c hc
  have hu := I.used b c hc
  have hlen := nodup_len_lt (I.ndF b c hc) (I.ltF b c hc) hi hiF
  have hndout : s.out.Nodup := nodup_of_map I.outN
  have hffL : c.ff = 255 → b ∉ L c.bk := by
    intro h hm
    obtain ⟨c', e1, _, e3⟩ := (I.memL _ _).mp hm
    rw [hc] at e1; cases e1; exact e3 h
  have hffL' : c.ff ≠ 255 → b ∈ L c.bk := fun h => (I.memL _ _).mpr ⟨c, hc, rfl, h⟩
  have cas : ∀ {b' c'}, upd s.cl b (some { c with ff := i, used := c.used - 1 }) b' = some c' →
      (b' = b ∧ c' = { c with ff := i, used := c.used - 1 }) ∨ (b' ≠ b ∧ s.cl b' = some c') := by
    intro b' c' h
    by_cases e : b' = b
    · subst e; rw [upd_same] at h; cases h; exact Or.inl ⟨rfl, rfl⟩
    · rw [upd_ne _ _ e] at h; exact Or.inr ⟨e, h⟩
  -- links of other blocks are not touched
  have hmem : ∀ {b' c' j}, s.cl b' = some c' → j ∈ F b' → upd s.mem addr c.ff (adr cf b' c'.bk j) = s.mem (adr cf b' c'.bk j) := by
    intro b' c' j h hj
    apply upd_ne
    rw [ha]
    intro e
    have := I.sep h hc (I.ltF b' c' h j hj) hi (by
      intro e1 e2; subst e1; subst e2; exact hiF hj)
    have q1 := (I.pos b' c' h).2.1
    omega
  unfold released
  refine ⟨?_, ?_, ?_, ?_, ?_, ?_, ?_, ?_, ?_, ?_, ?_, ?_, I.nxt, I.good⟩
  · intro b' c' h
    rcases cas h with ⟨e1, e2⟩ | ⟨e1, e2⟩
    · subst e1; subst e2; exact hp
    · exact I.pos b' c' e2
  · intro b' c' h
    rcases cas h with ⟨e1, e2⟩ | ⟨e1, e2⟩
    · subst e1; subst e2
      show Chain (fun j => upd s.mem addr c.ff (adr cf b' c.bk j)) 255 i (upd F b' (i :: F b') b')
      rw [upd_same]
      refine ⟨rfl, by omega, ?_⟩
      show Chain (fun j => upd s.mem addr c.ff (adr cf b' c.bk j)) 255 (upd s.mem addr c.ff (adr cf b' c.bk i)) (F b')
      rw [← ha, upd_same]
      exact Chain.congr (fun j hj => hmem hc hj) (I.chF b' c hc)
    · show Chain (fun j => upd s.mem addr c.ff (adr cf b' c'.bk j)) 255 c'.ff (upd F b (i :: F b) b')
      rw [upd_ne _ _ e1]
      exact Chain.congr (fun j hj => hmem e2 hj) (I.chF b' c' e2)
  · intro b' c' h
    rcases cas h with ⟨e1, e2⟩ | ⟨e1, e2⟩
    · subst e1; simp only [upd_same]; exact List.nodup_cons.mpr ⟨hiF, I.ndF b' c hc⟩
    · simp only [upd_ne _ _ e1]; exact I.ndF b' c' e2
  · intro b' c' h j
    rcases cas h with ⟨e1, e2⟩ | ⟨e1, e2⟩
    · subst e1; subst e2; simp only [upd_same]
      intro h
      rcases List.mem_cons.mp h with e | e
      · subst e; exact hi
      · exact I.ltF b' c hc j e
    · simp only [upd_ne _ _ e1]; exact I.ltF b' c' e2 j
  · intro b' c' h
    rcases cas h with ⟨e1, e2⟩ | ⟨e1, e2⟩
    · subst e1; subst e2; simp only [upd_same, List.length_cons]; omega
    · simp only [upd_ne _ _ e1]; exact I.used b' c' e2
  · intro k
    show Chain (if c.ff = 255 then upd s.ll b (s.head c.bk) else s.ll) 0 ((if c.ff = 255 then upd s.head c.bk b else s.head) k)
      (upd L c.bk (if c.ff = 255 then b :: L c.bk else L c.bk) k)
    by_cases hf : c.ff = 255
    · simp only [if_pos hf]
      by_cases e : k = c.bk
      · subst e; rw [upd_same, upd_same]
        refine ⟨rfl, by omega, ?_⟩
        rw [upd_same]
        exact Chain.upd (hffL hf) (I.chL _)
      · rw [upd_ne _ _ e, upd_ne _ _ e]
        apply Chain.upd _ (I.chL k)
        intro hm
        obtain ⟨c', e1, e2, e3⟩ := (I.memL _ _).mp hm
        rw [hc] at e1; cases e1; exact e3 hf
    · simp only [if_neg hf]
      by_cases e : k = c.bk
      · subst e; rw [upd_same]; exact I.chL _
      · rw [upd_ne _ _ e]; exact I.chL k
  · intro k
    by_cases e : k = c.bk
    · subst e; simp only [upd_same]
      split
      · rename_i hf; exact List.nodup_cons.mpr ⟨hffL hf, I.ndL _⟩
      · exact I.ndL _
    · simp only [upd_ne _ _ e]; exact I.ndL k
  · intro k b'
    show b' ∈ upd L c.bk (if c.ff = 255 then b :: L c.bk else L c.bk) k ↔ ∃ c', upd s.cl b _ b' = some c' ∧ c'.bk = k ∧ c'.ff ≠ 255
    by_cases eb : b' = b
    · subst eb; rw [upd_same]
      by_cases e : k = c.bk
      · subst e; rw [upd_same]
        constructor
        · intro _; exact ⟨_, rfl, rfl, by show i ≠ 255; omega⟩
        · intro _; split
          · simp
          · rename_i hf; exact hffL' hf
      · rw [upd_ne _ _ e, I.memL]
        constructor
        · rintro ⟨c', e1, e2, _⟩; rw [hc] at e1; cases e1; exact absurd e2.symm e
        · rintro ⟨c', e1, e2, _⟩; cases e1; exact absurd e2.symm e
    · rw [upd_ne _ _ eb, ← I.memL]
      by_cases e : k = c.bk
      · subst e; rw [upd_same]; split
        · simp [eb]
        · exact Iff.rfl
      · rw [upd_ne _ _ e]
  · intro b1 c1 b2 c2 g1 g2 hne
    rcases cas g1 with ⟨e1, e2⟩ | ⟨e1, e2⟩
    · rcases cas g2 with ⟨f1, f2⟩ | ⟨f1, f2⟩
      · exact absurd (e1.trans f1.symm) hne
      · subst e1; subst e2; exact I.disj b1 c b2 c2 hc f2 hne
    · rcases cas g2 with ⟨f1, f2⟩ | ⟨f1, f2⟩
      · subst f1; subst f2; exact I.disj b1 c1 b2 c e2 hc hne
      · exact I.disj b1 c1 b2 c2 e2 f2 hne
  · intro o ho'
    obtain ⟨ne, ho'⟩ := (List.Nodup.mem_erase_iff hndout).mp ho'
    obtain ⟨a1, a2, c', i', b1, b2, b3, b4, b5⟩ := I.outI o ho'
    have hna : o.addr ≠ addr := by
      intro e
      exact ne (inj_of_nodup I.outN ho' ho e)
    by_cases e : o.owner = b
    · rw [e, hc] at b1; cases b1
      refine ⟨a1, a2, { c with ff := i, used := c.used - 1 }, i', ?_, b2, b3, ?_, b5⟩
      · show upd s.cl b _ o.owner = _
        rw [e, upd_same]
      · show i' ∉ upd F b (i :: F b) o.owner
        rw [e, upd_same]
        intro h
        rcases List.mem_cons.mp h with q | q
        · subst q; rw [e, ← ha] at b5; exact hna b5
        · rw [e] at b4; exact b4 q
    · refine ⟨a1, a2, c', i', ?_, b2, b3, ?_, b5⟩
      · show upd s.cl b _ o.owner = _
        rw [upd_ne _ _ e]; exact b1
      · show i' ∉ upd F b (i :: F b) o.owner
        rw [upd_ne _ _ e]; exact b4
  · exact List.Nodup.sublist (List.Sublist.map _ List.erase_sublist) I.outN
  · intro b' c' j h hj hF
    have key : ∀ {c''}, s.cl b' = some c'' → j < c''.cnt → j ∉ F b' → (b' = b → j ≠ i) →
        ∃ o, o ∈ s.out.erase ⟨addr, size, b⟩ ∧ o.addr = adr cf b' c''.bk j := by
      intro c'' h hj hjF hne
      obtain ⟨o, ho', e2⟩ := I.outC b' c'' j h hj hjF
      refine ⟨o, (List.Nodup.mem_erase_iff hndout).mpr ⟨?_, ho'⟩, e2⟩
      intro e
      subst e
      have e2 : addr = adr cf b' c''.bk j := e2
      have := I.sep h hc hj hi hne
      have q1 := (I.pos _ _ h).2.1
      omega
    rcases cas h with ⟨e1, e2⟩ | ⟨e1, e2⟩
    · subst e1; subst e2
      have hF : j ∉ upd F b' (i :: F b') b' := hF
      rw [upd_same] at hF
      simp only [List.mem_cons, not_or] at hF
      exact key (c'' := c) hc hj hF.2 (fun _ => hF.1)
    · have hF : j ∉ upd F b (i :: F b) b' := hF
      rw [upd_ne _ _ e1] at hF
      exact key e2 hj hF (fun e => absurd e e1)

/-! ## Operations -/

theorem Inv.next' (I : Inv cf s F L) {bk n : Nat} (h : 0 < n ∧ n ≤ 255) :
    Inv cf { s with next := upd s.next bk (some n) } F L := by
  refine ⟨?_, I.chF, I.ndF, I.ltF, I.used, I.chL, I.ndL, I.memL, I.disj, I.outI, I.outN, I.outC, ?_, I.good⟩
  · intro b c hc
    have := I.pos b c hc
    refine ⟨this.1, this.2.1, this.2.2.1, this.2.2.2.1, ?_⟩
    show upd s.next bk (some n) c.bk ≠ none
    by_cases e : c.bk = bk
    · rw [e, upd_same]; simp
    · rw [upd_ne _ _ e]; exact this.2.2.2.2
  · intro k m hk
    have hk : upd s.next bk (some n) k = some m := hk
    by_cases e : k = bk
    · subst e; rw [upd_same] at hk; cases hk; exact h
    · rw [upd_ne _ _ e] at hk; exact I.nxt k m hk

theorem firstCnt_ok {bk : Nat} (h0 : 0 < bk) (hz : cf.sz < 255) :
    ∃ n, firstCnt cf bk = some n ∧ 0 < n ∧ n ≤ 255 := by
  unfold firstCnt
  rw [if_neg (by omega)]
  refine ⟨_, rfl, ?_⟩
  have h : (cf.sz + bk / 2) / bk < 255 := by
    rw [Nat.div_lt_iff_lt_mul h0]
    have : 255 * bk = 254 * bk + bk := by omega
    by_cases e : bk = 1
    · subst e; omega
    · have : 254 ≤ 127 * bk := by omega
      omega
  generalize (cf.sz + bk / 2) / bk = q at h
  rw [Nat.mod_eq_of_lt (by omega)]
  omega

/-- What an allocation does. -/
theorem Inv.alloc (I : Inv cf s F L) (hz : cf.sz < 255) {fuel sz nb : Nat} (h0 : 0 < sz) (h1 : sz ≤ 2 ^ 55)
    (hf : s.head (bksz sz) = 0 → Fresh cf s nb (cf.hdr + nextN cf s (bksz sz) * bksz sz)) :
    ∃ F' L' o, Inv cf (alloc cf fuel s sz nb) F' L' ∧ (alloc cf fuel s sz nb).out = o :: s.out ∧
      o.size = sz := by
  have hb := bksz_pos h0 h1
  have hn : ∃ n, cntOf cf s (bksz sz) = some n ∧
      0 < n ∧ n ≤ 255 ∧ nextN cf s (bksz sz) = n := by
    unfold nextN cntOf
    cases e : s.next (bksz sz) with
    | some n => exact ⟨n, rfl, (I.nxt _ _ e).1, (I.nxt _ _ e).2, rfl⟩
    | none =>
      obtain ⟨n, q1, q2, q3⟩ := firstCnt_ok (cf := cf) hb hz
      exact ⟨n, q1, q2, q3, by simp [q1]⟩
  obtain ⟨n, e1, e2, e3, e4⟩ := hn
  unfold Cluster.alloc
  simp only [e1]
  have I1 := I.next' (bk := bksz sz) ⟨e2, e3⟩
  by_cases hh : s.head (bksz sz) = 0
  · rw [if_pos hh]
    rw [e4] at hf
    have I2 := I1.create (bk := bksz sz) (b := nb) hb e2 e3 (hf hh) hh
    have hne : (Cluster.create cf { s with next := upd s.next (bksz sz) (some n) } (bksz sz) n nb).head (bksz sz) ≠ 0 := by
      show upd s.head (bksz sz) nb (bksz sz) ≠ 0
      rw [upd_same]
      have := (hf hh).1
      omega
    obtain ⟨c, i, t, lt, _, _, _, _, q1, _, q3⟩ := I2.take (fuel := fuel) h0 h1 rfl hne
    exact ⟨_, _, _, q3, q1, rfl⟩
  · rw [if_neg hh]
    obtain ⟨c, i, t, lt, _, _, _, _, q1, _, q3⟩ := I1.take (fuel := fuel) h0 h1 rfl hh
    exact ⟨_, _, _, q3, q1, rfl⟩

theorem idx {b bk i : Nat} (h0 : 0 < bk) (hi : i < 255) :
    ((adr cf b bk i - (b + cf.hdr)) / bk) % 256 = i := by
  unfold adr
  rw [Nat.add_sub_cancel_left, Nat.mul_div_cancel _ h0, Nat.mod_eq_of_lt (by omega)]

/-- `makeDealloc` and `onDealloc` with the right cluster and size. -/
theorem Inv.free (I : Inv cf s F L) {o : Blk} {fuel : Nat} (ho : o ∈ s.out) {c : Clu} {i : Nat}
    (hc : s.cl o.owner = some c) (hi : i < c.cnt) (hiF : i ∉ F o.owner)
    (ha : o.addr = adr cf o.owner c.bk i) :
    onDealloc fuel (makeDealloc cf { s with out := s.out.erase o } o.owner o.addr c.bk) c.bk o.owner (c.ff == 255)
      = Cluster.checkEmpty fuel (released s o c i) o.owner := by
  have hp := I.pos _ _ hc
  have hu := I.used _ _ hc
  have hlen := nodup_len_lt (I.ndF _ _ hc) (I.ltF _ _ hc) hi hiF
  have e : (o.addr - (o.owner + cf.hdr)) / c.bk % 256 = i := by rw [ha]; exact idx hp.2.1 (by omega)
  have eu : (c.used + 255) % 256 = c.used - 1 := by omega
  unfold onDealloc makeDealloc released
  simp only [hc, e, eu]
  by_cases h : c.ff = 255
  · simp [h]
  · simp [h]

theorem mine (I : Inv cf s F L) {o : Blk} (ho : o ∈ s.out) {b : Nat}
    (h : isMyPtr cf s b o.addr (bksz o.size)) (hbk : ∃ c, s.cl b = some c ∧ c.bk = bksz o.size) : b = o.owner := by
  obtain ⟨c, hc, hcb⟩ := hbk
  obtain ⟨a1, a2, c', i', b1, b2, b3, b4, b5⟩ := I.outI o ho
  simp only [isMyPtr, hc] at h
  rw [← hcb] at h
  apply Decidable.byContradiction
  intro e
  have h2 := mul_succ_le (k := c'.bk) b3
  have h3 := (I.pos _ _ b1).2.1
  rw [b5] at h
  unfold adr at h
  rcases I.disj b c o.owner c' hc b1 e with q | q <;> omega

/-- What a release does. -/
theorem Inv.dealloc (I : Inv cf s F L) (hz : 0 < cf.sz) {o : Blk} {k : Option Nat} {fuel : Nat} (ho : o ∈ s.out)
    (hk : Seek s (bksz o.size) o.addr k) {c : Clu} {i : Nat} (hc : s.cl o.owner = some c) (hcb : c.bk = bksz o.size)
    (hi : i < c.cnt) (hiF : i ∉ F o.owner) (ha : o.addr = adr cf o.owner c.bk i) :
    dealloc cf fuel { s with out := s.out.erase o } o.addr o.size k = Cluster.checkEmpty fuel (released s o c i) o.owner := by
  have hp := I.pos _ _ hc
  have hmul := mul_succ_le (k := c.bk) hi
  have hself : isMyPtr cf s o.owner o.addr (bksz o.size) := by
    simp only [isMyPtr, hc]
    rw [ha, ← hcb]
    unfold adr
    omega
  have hfree := I.free (fuel := fuel) ho hc hi hiF ha
  unfold Cluster.dealloc
  simp only
  rw [if_neg (by rw [← hcb]; exact hp.2.2.2.2)]
  split
  · rename_i h
    obtain ⟨h1, h2⟩ := h
    have hm : s.head (bksz o.size) ∈ L (bksz o.size) := by
      obtain ⟨t, e, _⟩ := head_cons (I.chL _) h1
      rw [e]; simp
    obtain ⟨c', e1, e2, e3⟩ := (I.memL _ _).mp hm
    have hh : s.head (bksz o.size) = o.owner := mine I ho h2 ⟨c', e1, e2⟩
    rw [hh, hc] at e1; cases e1
    rw [hh, ← hfree, ← hcb]
    have : (c.ff == 255) = false := by simp [e3]
    rw [this]
  · have hk' : k = some o.owner := by
      have h8 : 8 ≤ cf.hdr := by unfold Cfg.hdr; omega
      have hge : o.owner + 8 ≤ o.addr := by rw [ha]; unfold adr; omega
      cases k with
      | none => exact absurd (hk _ _ hc hcb) (by omega)
      | some k =>
        obtain ⟨⟨c', k1, k2⟩, k3, k4⟩ := hk
        have := k4 _ _ hc hcb hge
        by_cases e : k = o.owner
        · rw [e]
        · exfalso
          have := I.disj k c' o.owner c k1 hc e
          rw [ha] at k3
          unfold adr at k3
          omega
    subst hk'
    simp only
    rw [if_neg (fun q => q (show isMyPtr cf { s with out := s.out.erase o } o.owner o.addr (bksz o.size) from hself))]
    rw [← hfree, ← hcb]
    have : isFull { s with out := s.out.erase o } o.owner = (c.ff == 255) := by simp [isFull, hc]
    rw [this]

theorem Inv.deallocOwner (I : Inv cf s F L) {o : Blk} {fuel : Nat} (ho : o ∈ s.out)
    (hs : bksz o.size = o.size) {c : Clu} {i : Nat} (hc : s.cl o.owner = some c) (hcb : c.bk = bksz o.size)
    (hi : i < c.cnt) (hiF : i ∉ F o.owner) (ha : o.addr = adr cf o.owner c.bk i) :
    deallocOwner cf fuel { s with out := s.out.erase o } o.owner o.addr o.size = Cluster.checkEmpty fuel (released s o c i) o.owner := by
  have hp := I.pos _ _ hc
  have hmul := mul_succ_le (k := c.bk) hi
  have hself : isMyPtr cf { s with out := s.out.erase o } o.owner o.addr (bksz o.size) := by
    simp only [isMyPtr, hc]
    rw [ha, ← hcb]
    unfold adr
    omega
  have hfree := I.free (fuel := fuel) ho hc hi hiF ha
  unfold Cluster.deallocOwner
  simp only [hc]
  rw [if_neg (fun q => q hself)]
  have e1 : isFull { s with out := s.out.erase o } o.owner = (c.ff == 255) := by simp [isFull, hc]
  rw [e1]
  have e2 : o.size = c.bk := by rw [hcb, hs]
  rw [e2]
  split
  · exact hfree
  · rename_i h
    simp only [not_or] at h
    rw [← hfree]
    unfold onDealloc
    rw [if_neg h.1, checkEmpty_id (by simpa using h.2)]

/-- The invariant holds at any time. -/
theorem inv_step (hst : cf.strict = true) (hz0 : 0 < cf.sz) (hz : cf.sz < 255) (I : Inv cf s F L) {s' : St} (h : Tr cf s s') :
    ∃ F' L', Inv cf s' F' L' := by
  cases h with
  | alloc sz nb fuel h0 h1 hf =>
    obtain ⟨F', L', _, q, _⟩ := I.alloc hz (fuel := fuel) h0 h1 hf
    exact ⟨F', L', q⟩
  | dealloc o k fuel ho hk =>
    obtain ⟨a1, a2, c, i, b1, b2, b3, b4, b5⟩ := I.outI o ho
    rw [I.dealloc hz0 ho hk b1 b2 b3 b4 b5]
    obtain ⟨L', q, _⟩ := (I.release ho b1 b3 b4 b5).checkEmpty (fuel := fuel) (bk := c.bk) (k := o.owner) (by
      rw [upd_same]; split
      · simp
      · rename_i hf; exact (I.memL _ _).mpr ⟨c, b1, rfl, hf⟩)
    exact ⟨upd F o.owner (i :: F o.owner), L', q⟩
  | deallocOwner o fuel ho hs =>
    obtain ⟨a1, a2, c, i, b1, b2, b3, b4, b5⟩ := I.outI o ho
    rw [I.deallocOwner ho (hs hst) b1 b2 b3 b4 b5]
    obtain ⟨L', q, _⟩ := (I.release ho b1 b3 b4 b5).checkEmpty (fuel := fuel) (bk := c.bk) (k := o.owner) (by
      rw [upd_same]; split
      · simp
      · rename_i hf; exact (I.memL _ _).mpr ⟨c, b1, rfl, hf⟩)
    exact ⟨upd F o.owner (i :: F o.owner), L', q⟩
  | allocVia b sz nb fuel hs hb h0 h1 hf => rw [hst] at hs; cases hs
  | write a v h => exact ⟨F, L, I.write v (I.usable h)⟩

theorem inv_reach (hst : cf.strict = true) (hz0 : 0 < cf.sz) (hz : cf.sz < 255) (r : Reach cf s) : ∃ F L, Inv cf s F L := by
  induction r with
  | init mem => exact ⟨_, _, inv_init cf mem⟩
  | step r h ih =>
    obtain ⟨F, L, I⟩ := ih
    exact inv_step hst hz0 hz I h

end LS.Cluster
