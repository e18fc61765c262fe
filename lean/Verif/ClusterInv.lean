import Verif.Cluster
/-
Invariant of the cluster allocator and its preservation.
-/
namespace LS.Cluster

/-! ## Sizes of blocks -/

theorem and_mask (x k : Nat) (hx : x < 2 ^ 64) (hk : k ≤ 64) :
    x &&& (2 ^ 64 - 2 ^ k) = x / 2 ^ k * 2 ^ k := by
  have e : 2 ^ 64 - 2 ^ k = (2 ^ (64 - k) - 1) <<< k := by
    rw [Nat.shiftLeft_eq, Nat.sub_mul, ← Nat.pow_add, Nat.one_mul]
    congr 2; omega
  rw [e, ← Nat.shiftRight_eq_div_pow, ← Nat.shiftLeft_eq]
  apply Nat.eq_of_testBit_eq
  intro i
  simp only [Nat.testBit_and, Nat.testBit_shiftLeft, Nat.testBit_two_pow_sub_one, Nat.testBit_shiftRight]
  by_cases h : k ≤ i
  · have e1 : k + (i - k) = i := by omega
    rw [e1]
    by_cases h2 : i < 64
    · have : i - k < 64 - k := by omega
      simp [h, this]
    · have : x.testBit i = false := Nat.testBit_lt_two_pow (Nat.lt_of_lt_of_le hx (Nat.pow_le_pow_right (by omega) (by omega)))
      simp [this]
  · simp [h]

/-- The size class, stated without bit operations. -/
def cls (n : Nat) : Nat :=
  if 4 < n then (n + 7) / 8 * 8 else if n = 3 then 4 else n

theorem bksz_eq {n : Nat} (h0 : 0 < n) (h : n ≤ 2 ^ 55) : bksz n = cls n := by
  by_cases h8 : 8 ≤ n
  · have e : fsLoop n 4 8 = 8 := by rw [fsLoop, if_neg (by omega)]
    have e2 : (2 ^ 64 - 1 - 7 : Nat) = 2 ^ 64 - 2 ^ 3 := by decide
    simp only [bksz, e, dec]
    rw [if_neg (by omega)]
    rw [show (8 - 1 : Nat) = 7 from rfl, e2, Nat.mod_eq_of_lt (by omega), and_mask _ _ (by omega) (by omega)]
    unfold cls
    rw [if_pos (by omega)]
  · have : n = 1 ∨ n = 2 ∨ n = 3 ∨ n = 4 ∨ n = 5 ∨ n = 6 ∨ n = 7 := by omega
    rcases this with h | h | h | h | h | h | h <;> subst h <;>
      simp [bksz, fsLoop, dec, cls]

theorem bksz_ge {n : Nat} (h0 : 0 < n) (h : n ≤ 2 ^ 55) : n ≤ bksz n := by
  rw [bksz_eq h0 h]; unfold cls; split
  · omega
  · split <;> omega

theorem bksz_pos {n : Nat} (h0 : 0 < n) (h : n ≤ 2 ^ 55) : 0 < bksz n :=
  Nat.lt_of_lt_of_le h0 (bksz_ge h0 h)

/-! ## Linked lists -/

/-- `l` are the members of the list that begins at `h` and ends with `e`. -/
def Chain (nx : Nat → Nat) (e : Nat) : Nat → List Nat → Prop
  | h, [] => h = e
  | h, x :: l => h = x ∧ x ≠ e ∧ Chain nx e (nx x) l

theorem Chain.congr {nx nx' : Nat → Nat} {e : Nat} : ∀ {l : List Nat} {h : Nat},
    (∀ x, x ∈ l → nx' x = nx x) → Chain nx e h l → Chain nx' e h l
  | [], _, _, c => c
  | x :: l, _, hc, c => by
    obtain ⟨c1, c2, c3⟩ := c
    refine ⟨c1, c2, ?_⟩
    rw [hc x (by simp)]
    exact Chain.congr (fun y hy => hc y (by simp [hy])) c3

theorem upd_same {α : Type} (f : Nat → α) (i : Nat) (v : α) : upd f i v i = v := by simp [upd]
theorem upd_ne {α : Type} (f : Nat → α) {i j : Nat} (v : α) (h : j ≠ i) : upd f i v j = f j := by
  simp [upd, h]

theorem Chain.upd {nx : Nat → Nat} {e i v : Nat} {l : List Nat} {h : Nat} (hi : i ∉ l)
    (c : Chain nx e h l) : Chain (upd nx i v) e h l :=
  Chain.congr (fun x hx => upd_ne _ _ (fun e => hi (e ▸ hx))) c

theorem Chain.del {nx : Nat → Nat} {e k m : Nat} {q : List Nat} : ∀ {p : List Nat} {h : Nat},
    (p ++ k :: m :: q).Nodup → Chain nx e h (p ++ k :: m :: q) →
    Chain (Cluster.upd nx k (nx m)) e h (p ++ k :: q)
  | [], h, nd, c => by
    obtain ⟨c1, c2, c3, _, c5⟩ := c
    simp only [List.nil_append, List.nodup_cons, List.mem_cons, not_or] at nd
    refine ⟨c1, c2, ?_⟩
    rw [upd_same]
    exact Chain.upd nd.1.2 c5
  | x :: p, h, nd, c => by
    obtain ⟨c1, c2, c3⟩ := c
    rw [List.cons_append, List.nodup_cons] at nd
    refine ⟨c1, c2, ?_⟩
    have hx : x ≠ k := by
      intro e; subst e; exact nd.1 (by simp)
    rw [upd_ne _ _ hx]
    exact Chain.del nd.2 c3

theorem Chain.next {nx : Nat → Nat} {e k : Nat} {q : List Nat} : ∀ {p : List Nat} {h : Nat},
    Chain nx e h (p ++ k :: q) → nx k ≠ e → ∃ q', q = nx k :: q'
  | [], h, c, hn => by
    obtain ⟨_, _, c3⟩ := c
    cases q with
    | nil => exact absurd c3 hn
    | cons y q' => exact ⟨q', by rw [c3.1]⟩
  | x :: p, h, c, hn => Chain.next (p := p) c.2.2 hn

theorem nodup_len : ∀ (n : Nat) (l : List Nat), l.Nodup → (∀ x, x ∈ l → x < n) → l.length ≤ n
  | 0, l, _, h => by
    cases l with
    | nil => simp
    | cons x l => exact absurd (h x (by simp)) (by omega)
  | n + 1, l, nd, h => by
    have h1 : (l.erase n).length ≤ n := nodup_len n (l.erase n) (nd.erase n) (by
      intro x hx
      have := (List.Nodup.mem_erase_iff nd).mp hx
      have := h x this.2
      omega)
    have : l.length ≤ (l.erase n).length + 1 := by
      rw [List.length_erase]; split <;> omega
    omega

theorem nodup_len_lt {n i : Nat} {l : List Nat} (nd : l.Nodup) (h : ∀ x, x ∈ l → x < n) (hi : i < n)
    (hl : i ∉ l) : l.length < n := by
  have := nodup_len n (i :: l) (List.nodup_cons.mpr ⟨hl, nd⟩) (by
    intro x hx
    rcases List.mem_cons.mp hx with e | e
    · omega
    · exact h x e)
  simp only [List.length_cons] at this
  omega

/-! ## Invariant -/

/-- `F b`: indices of the free blocks of the cluster `b` in the order of the list; `L bk`:
clusters in the list `freeClusters`. -/
structure Inv (cf : Cfg) (s : St) (F L : Nat → List Nat) : Prop where
  pos : ∀ b c, s.cl b = some c → 0 < b ∧ 0 < c.bk ∧ 0 < c.cnt ∧ c.cnt ≤ 255 ∧ s.next c.bk ≠ none
  chF : ∀ b c, s.cl b = some c → Chain (fun i => s.mem (adr cf b c.bk i)) 255 c.ff (F b)
  ndF : ∀ b c, s.cl b = some c → (F b).Nodup
  ltF : ∀ b c, s.cl b = some c → ∀ i, i ∈ F b → i < c.cnt
  used : ∀ b c, s.cl b = some c → c.used + (F b).length = c.cnt
  chL : ∀ k, Chain s.ll 0 (s.head k) (L k)
  ndL : ∀ k, (L k).Nodup
  memL : ∀ k b, b ∈ L k ↔ ∃ c, s.cl b = some c ∧ c.bk = k ∧ c.ff ≠ 255
  disj : ∀ b c b' c', s.cl b = some c → s.cl b' = some c' → b ≠ b' →
    b + cf.hdr + c.cnt * c.bk ≤ b' ∨ b' + cf.hdr + c'.cnt * c'.bk ≤ b
  outI : ∀ o, o ∈ s.out → 0 < o.size ∧ o.size ≤ 2 ^ 55 ∧ ∃ c i, s.cl o.owner = some c ∧
    c.bk = bksz o.size ∧ i < c.cnt ∧ i ∉ F o.owner ∧ o.addr = adr cf o.owner c.bk i
  outN : (s.out.map Blk.addr).Nodup
  outC : ∀ b c i, s.cl b = some c → i < c.cnt → i ∉ F b → ∃ o, o ∈ s.out ∧ o.addr = adr cf b c.bk i
  nxt : ∀ k n, s.next k = some n → 0 < n ∧ n ≤ 255
  good : s.err = false ∧ s.ub = false

theorem inv_init (cf : Cfg) (mem : Nat → Nat) : Inv cf (.init mem) (fun _ => []) (fun _ => []) where
  pos := by intro b c h; cases h
  chF := by intro b c h; cases h
  ndF := by intro b c h; cases h
  ltF := by intro b c h; cases h
  used := by intro b c h; cases h
  chL := by intro k; rfl
  ndL := by intro k; exact List.nodup_nil
  memL := by
    intro k b
    constructor
    · intro h; cases h
    · rintro ⟨c, h, _⟩; cases h
  disj := by intro b c b' c' h; cases h
  outI := by intro o h; cases h
  outN := by exact List.nodup_nil
  outC := by intro b c i h; cases h
  nxt := by intro k n h; cases h
  good := ⟨rfl, rfl⟩

theorem mul_succ_le {i n k : Nat} (h : i < n) : i * k + k ≤ n * k := by
  have := Nat.mul_le_mul_right k (show i + 1 ≤ n from h)
  rw [Nat.add_mul, Nat.one_mul] at this
  exact this

/-- Two blocks of clusters do not overlap. -/
theorem Inv.sep {cf : Cfg} {s : St} {F L : Nat → List Nat} (I : Inv cf s F L) {b b' : Nat} {c c' : Clu}
    {i i' : Nat} (h : s.cl b = some c) (h' : s.cl b' = some c') (hi : i < c.cnt) (hi' : i' < c'.cnt)
    (hne : b = b' → i ≠ i') :
    adr cf b c.bk i + c.bk ≤ adr cf b' c'.bk i' ∨ adr cf b' c'.bk i' + c'.bk ≤ adr cf b c.bk i := by
  unfold adr
  by_cases e : b = b'
  · subst e
    rw [h] at h'; cases h'
    have := hne rfl
    rcases Nat.lt_or_gt_of_ne this with q | q
    · left; have := mul_succ_le (k := c.bk) q; omega
    · right; have := mul_succ_le (k := c.bk) q; omega
  · have a := mul_succ_le (k := c.bk) hi
    have a' := mul_succ_le (k := c'.bk) hi'
    rcases I.disj b c b' c' h h' e with q | q
    · left; omega
    · right; omega

theorem Inv.ff {cf : Cfg} {s : St} {F L : Nat → List Nat} (I : Inv cf s F L) {b : Nat} {c : Clu}
    (h : s.cl b = some c) : c.ff = 255 ↔ F b = [] := by
  have := I.chF b c h
  cases hF : F b with
  | nil => rw [hF] at this; simp only [Chain] at this; simp [this]
  | cons x l => rw [hF] at this; simp only [Chain] at this; simp [this.1, this.2.1]

theorem Inv.head {cf : Cfg} {s : St} {F L : Nat → List Nat} (I : Inv cf s F L) (k : Nat) :
    s.head k = 0 ↔ L k = [] := by
  have := I.chL k
  cases hF : L k with
  | nil => rw [hF] at this; simp only [Chain] at this; simp [this]
  | cons x l => rw [hF] at this; simp only [Chain] at this; simp [this.1, this.2.1]

theorem checkEmpty_id {fuel : Nat} {s : St} {k : Nat} (h : isEmpty s k = false) :
    checkEmpty fuel s k = s := by
  cases fuel with
  | zero => rfl
  | succ n => simp [checkEmpty, h]

/-- The loop of `checkEmpty` keeps the invariant, and the cluster `k` stays. -/
theorem Inv.checkEmpty {cf : Cfg} {bk k : Nat} : ∀ {fuel : Nat} {s : St} {F L : Nat → List Nat},
    Inv cf s F L → k ∈ L bk → ∃ L', Inv cf (checkEmpty fuel s k) F L' ∧ k ∈ L' bk ∧
      (∀ bk', L' bk' ⊆ L bk') ∧ (checkEmpty fuel s k).out = s.out ∧ (checkEmpty fuel s k).mem = s.mem
      ∧ (checkEmpty fuel s k).cl k = s.cl k
      ∧ (∀ b c, (Cluster.checkEmpty fuel s k).cl b = some c → s.cl b = some c)
  | 0, s, F, L, I, hk => ⟨L, I, hk, fun _ => List.Subset.refl _, rfl, rfl, rfl, fun _ _ h => h⟩
  | fuel + 1, s, F, L, I, hk => by
    unfold Cluster.checkEmpty
    split
    · rename_i hc
      obtain ⟨h1, h2, h3⟩ := hc
      obtain ⟨p, q, hL⟩ := List.append_of_mem hk
      have hch := I.chL bk
      rw [hL] at hch
      obtain ⟨q', hq⟩ := Chain.next hch h1
      subst hq
      have hnd := I.ndL bk
      rw [hL] at hnd
      have hlm : s.ll k ∈ L bk := by rw [hL]; simp
      obtain ⟨cl, hcl, hclb, hclf⟩ := (I.memL bk (s.ll k)).mp hlm
      have hemp : cl.used = 0 := by simpa [isEmpty, hcl] using h3
      have hne : s.ll k ≠ k := by
        intro e
        rw [List.nodup_append] at hnd
        have := hnd.2.1
        rw [List.nodup_cons] at this
        exact this.1 (List.mem_cons.mpr (Or.inl e.symm))
      have hnq : s.ll k ∉ p ++ k :: q' := by
        intro hm
        rw [List.nodup_append] at hnd
        obtain ⟨n1, n2, n3⟩ := hnd
        rw [List.nodup_cons, List.nodup_cons] at n2
        rcases List.mem_append.mp hm with e | e
        · exact n3 _ e (s.ll k) (by simp) rfl
        · rcases List.mem_cons.mp e with e | e
          · exact hne e
          · exact n2.2.1 e
      -- the new lists
      have I' : Inv cf { s with ll := upd s.ll k (s.ll (s.ll k)), cl := upd s.cl (s.ll k) none } F
          (fun x => if x = bk then p ++ k :: q' else L x) := by
        have old : ∀ {b c}, upd s.cl (s.ll k) none b = some c → b ≠ s.ll k ∧ s.cl b = some c := by
          intro b c h
          by_cases e : b = s.ll k
          · subst e; rw [upd_same] at h; cases h
          · rw [upd_ne _ _ e] at h; exact ⟨e, h⟩
        refine ⟨fun b c h => I.pos b c (old h).2, fun b c h => I.chF b c (old h).2,
          fun b c h => I.ndF b c (old h).2, fun b c h => I.ltF b c (old h).2,
          fun b c h => I.used b c (old h).2, ?_, ?_, ?_,
          fun b c b' c' h h' => I.disj b c b' c' (old h).2 (old h').2, ?_, I.outN,
          fun b c i h => I.outC b c i (old h).2, I.nxt, I.good⟩
        · intro x
          show Chain _ 0 (s.head x) (if x = bk then p ++ k :: q' else L x)
          by_cases e : x = bk
          · rw [if_pos e, e]
            exact Chain.del hnd hch
          · rw [if_neg e]
            apply Chain.upd _ (I.chL x)
            intro hm
            obtain ⟨c1, e1, e2, _⟩ := (I.memL x k).mp hm
            obtain ⟨c2, f1, f2, _⟩ := (I.memL bk k).mp hk
            rw [e1] at f1; cases f1
            exact e (e2.symm.trans f2)
        · intro x
          show (if x = bk then p ++ k :: q' else L x).Nodup
          split
          · rw [List.nodup_append] at hnd ⊢
            obtain ⟨n1, n2, n3⟩ := hnd
            rw [List.nodup_cons, List.nodup_cons] at n2
            refine ⟨n1, List.nodup_cons.mpr ⟨fun h => n2.1 (by simp [h]), n2.2.2⟩, ?_⟩
            intro a ha b hb
            apply n3 a ha b
            rcases List.mem_cons.mp hb with e | e
            · simp [e]
            · simp [e]
          · exact I.ndL x
        · intro x b
          show b ∈ (if x = bk then p ++ k :: q' else L x) ↔ ∃ c, upd s.cl (s.ll k) none b = some c ∧ c.bk = x ∧ c.ff ≠ 255
          by_cases eb : b = s.ll k
          · subst eb
            rw [upd_same]
            constructor
            · intro hm
              by_cases e : x = bk
              · rw [if_pos e] at hm; exact absurd hm hnq
              · rw [if_neg e] at hm
                obtain ⟨c1, e1, e2, _⟩ := (I.memL x _).mp hm
                rw [hcl] at e1; cases e1
                exact absurd (e2.symm.trans hclb) e
            · rintro ⟨c, h, _⟩; cases h
          · rw [upd_ne _ _ eb, ← I.memL x b]
            by_cases e : x = bk
            · rw [if_pos e, e, hL]
              simp [eb]
            · rw [if_neg e]
        · intro o ho
          obtain ⟨a1, a2, c, i, b1, b2, b3, b4, b5⟩ := I.outI o ho
          refine ⟨a1, a2, c, i, ?_, b2, b3, b4, b5⟩
          show upd s.cl (s.ll k) none o.owner = some c
          rw [upd_ne]
          · exact b1
          · intro e
            rw [e, hcl] at b1; cases b1
            rw [e] at b4
            have := nodup_len_lt (I.ndF _ _ hcl) (I.ltF _ _ hcl) b3 b4
            have := I.used _ _ hcl
            omega
      obtain ⟨L', r1, r2, r3, r4, r5, r6, r7⟩ := Inv.checkEmpty (fuel := fuel) I' (by simp : k ∈ (fun x => if x = bk then p ++ k :: q' else L x) bk)
      refine ⟨L', r1, r2, ?_, r4, r5, ?_, ?_⟩
      · intro x y hy
        have this : y ∈ (if x = bk then p ++ k :: q' else L x) := r3 x hy
        by_cases e : x = bk
        · rw [if_pos e] at this
          rw [e, hL]
          rcases List.mem_append.mp this with e | e
          · simp [e]
          · rcases List.mem_cons.mp e with e | e <;> simp [e]
        · rw [if_neg e] at this; exact this
      · rw [r6]
        exact upd_ne _ _ (Ne.symm hne)
      · intro b c h
        have h := r7 b c h
        have h : upd s.cl (s.ll k) none b = some c := h
        by_cases e : b = s.ll k
        · subst e; rw [upd_same] at h; cases h
        · rw [upd_ne _ _ e] at h; exact h
    · exact ⟨L, I, hk, fun _ => List.Subset.refl _, rfl, rfl, rfl, fun _ _ h => h⟩

end LS.Cluster
