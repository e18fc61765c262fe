import Verif.SyncPt
import Verif.FastLockProps
/-! # Property C38 (and C70): synchronisation points -/

namespace LS.SyncPt
open LS.FastLock (upd upd_same upd_ne Chain)

/-! ## Specification -/

/-- The waiting slots, the oldest first; the slots registered some time; the signaled slots. -/
structure Spec where
  waiting : List Nat := []
  known : List Nat := []
  sig : Nat → Bool := fun _ => false

/-- What a call shall do: its result, the notified slots, the new state. -/
def Spec.step (o : Order) (s : Spec) : Op → (Bool × List Nat) × Spec
  | .add x =>
    if x ∈ s.known then ((false, []), s)
    else ((true, []), { s with waiting := s.waiting ++ [x], known := x :: s.known })
  | .remove x =>
    if x ∈ s.known then
      if x ∈ s.waiting then ((true, []), { s with waiting := s.waiting.erase x })
      else ((false, []), s)
    else ((true, []), s)
  | .notifyOne =>
    match (if o = .queue then s.waiting.head? else s.waiting.getLast?) with
    | none => ((false, []), s)
    | some x => ((true, [x]), { s with waiting := s.waiting.erase x, sig := upd s.sig x true })
  | .notifyAll =>
    ((!s.waiting.isEmpty, s.waiting.reverse),
      { s with waiting := [], sig := (fun x => decide (x ∈ s.waiting) || s.sig x) })
  | .reset x => ((s.sig x, []), { s with sig := upd s.sig x false })

def Spec.run (o : Order) : Spec → List Op → List (Bool × List Nat)
  | _, [] => []
  | s, op :: l => (s.step o op).1 :: Spec.run o (s.step o op).2 l

/-- Slots are not null. -/
def Op.valid : Op → Prop
  | .add x | .remove x | .reset x => x ≠ 0
  | _ => True

instance (op : Op) : Decidable op.valid := by cases op <;> unfold Op.valid <;> infer_instance

/-! ## Chains -/

theorem Chain.append {n : Nat → Nat} {A B : List Nat} {c e} :
    Chain n c (A ++ B) e ↔ ∃ m, Chain n c A m ∧ Chain n m B e := by
  induction A generalizing c with
  | nil => exact ⟨fun h => ⟨c, rfl, h⟩, fun ⟨m, h1, h2⟩ => by cases h1; exact h2⟩
  | cons a A ih =>
    simp only [List.cons_append, Chain]
    constructor
    · rintro ⟨rfl, h⟩
      obtain ⟨m, h1, h2⟩ := ih.1 h
      exact ⟨m, ⟨rfl, h1⟩, h2⟩
    · rintro ⟨m, ⟨rfl, h1⟩, h2⟩
      exact ⟨rfl, ih.2 ⟨m, h1, h2⟩⟩

theorem Chain.set {n : Nat → Nat} {A B : List Nat} {c q e v e'} (h : Chain n c (A ++ q :: B) e)
    (hA : q ∉ A) {B' : List Nat} (hB : q ∉ B') (h' : Chain n v B' e') :
    Chain (upd n q v) c (A ++ q :: B') e' := by
  obtain ⟨m, h1, h2⟩ := Chain.append.1 h
  refine Chain.append.2 ⟨m, h1.congr (fun a ha => upd_ne _ _ (fun hh => hA (hh ▸ ha))), h2.1, ?_⟩
  rw [upd_same]
  exact h'.congr (fun a ha => upd_ne _ _ (fun hh => hB (hh ▸ ha)))

theorem findPrev_spec {n : Nat → Nat} {x} : ∀ (W : List Nat) {a fuel},
    Chain n a (a :: W) 0 → (∀ b ∈ W, b ≠ 0) → W.length < fuel →
    ∃ A q B, a :: W = A ++ q :: B ∧ findPrev n x fuel a = some q ∧
      ((n q = x ∧ ∃ B', B = x :: B') ∨ (x ∉ W ∧ n q = 0)) := by
  intro W
  induction W with
  | nil =>
    intro a fuel h _ hf
    obtain ⟨f, rfl⟩ : ∃ f, fuel = f + 1 := ⟨fuel - 1, by simp at hf; omega⟩
    have h0 : n a = 0 := h.2
    refine ⟨[], a, [], rfl, ?_, .inr ⟨by simp, h0⟩⟩
    unfold findPrev
    rw [if_neg (fun hh => hh.1 h0)]
  | cons b W ih =>
    intro a fuel h hz hf
    obtain ⟨f, rfl⟩ : ∃ f, fuel = f + 1 := ⟨fuel - 1, by simp at hf; omega⟩
    obtain ⟨-, h⟩ := h
    have hb : n a = b := h.1
    have hb0 : b ≠ 0 := hz b (by simp)
    unfold findPrev
    by_cases hx : b = x
    · rw [if_neg (fun hh => hh.2 (hb.trans hx))]
      exact ⟨[], a, b :: W, rfl, rfl, .inl ⟨hb.trans hx, W, by rw [hx]⟩⟩
    · rw [hb, if_pos ⟨hb0, hx⟩]
      rw [hb] at h
      obtain ⟨A, q, B, h1, h2, h3⟩ := ih (fuel := f) h (fun c hc => hz c (by simp [hc]))
        (by simp at hf; omega)
      refine ⟨a :: A, q, B, by rw [h1]; rfl, h2, ?_⟩
      rcases h3 with h3 | ⟨h3, h4⟩
      · exact .inl h3
      · exact .inr ⟨by simp [h3, Ne.symm hx], h4⟩

theorem toLast_spec {n : Nat → Nat} : ∀ (W : List Nat) {a b fuel},
    Chain n a (a :: b :: W) 0 → (∀ c ∈ b :: W, c ≠ 0) → W.length < fuel →
    ∃ A q p, a :: b :: W = A ++ [q, p] ∧ toLast n fuel a = some (q, p) := by
  intro W
  induction W with
  | nil =>
    intro a b fuel h hz hf
    obtain ⟨f, rfl⟩ : ∃ f, fuel = f + 1 := ⟨fuel - 1, by simp at hf; omega⟩
    obtain ⟨-, hb, h0⟩ := h
    refine ⟨[], a, b, rfl, ?_⟩
    have h0 : n b = 0 := h0
    unfold toLast
    rw [hb, if_neg (fun hh => hh h0)]
  | cons c W ih =>
    intro a b fuel h hz hf
    obtain ⟨f, rfl⟩ : ∃ f, fuel = f + 1 := ⟨fuel - 1, by simp at hf; omega⟩
    obtain ⟨-, h⟩ := h
    have hb : n a = b := h.1
    have hc : n b = c := h.2.1
    have hc0 : c ≠ 0 := hz c (by simp)
    rw [hb] at h
    obtain ⟨A, q, p, h1, h2⟩ := ih (fuel := f) h (fun d hd => hz d (by simp [hd]))
      (by simp at hf; omega)
    refine ⟨a :: A, q, p, by rw [h1]; rfl, ?_⟩
    unfold toLast
    rw [hb, if_pos (by rw [hc]; exact hc0)]
    exact h2

/-! ## The representation -/

structure Rep (s : St) (S : Spec) : Prop where
  chain : Chain s.next s.cur S.waiting.reverse 0
  nz : ∀ x ∈ S.waiting, x ≠ 0
  nodup : S.waiting.Nodup
  charged : ∀ x, s.charged x = decide (x ∈ S.known)
  sub : ∀ x ∈ S.waiting, x ∈ S.known
  fresh : ∀ x, x ∉ S.known → s.next x = 0 ∧ s.signaled x = false
  sig : s.signaled = S.sig

theorem Rep.init : Rep {} {} where
  chain := rfl
  nz := by simp
  nodup := by simp
  charged := by simp
  sub := by simp
  fresh := by simp
  sig := rfl

theorem nodup_rev {l : List Nat} (h : l.Nodup) : l.reverse.Nodup :=
  List.pairwise_reverse.2 (h.imp fun hh => Ne.symm hh)

theorem erase_mid {A B : List Nat} {x} (h : x ∉ A) : (A ++ x :: B).erase x = A ++ B := by
  rw [List.erase_append_right _ h, List.erase_cons_head]

theorem Rep.erase {s S x} (r : Rep s S) (s' : St) (A B : List Nat)
    (hW : S.waiting.reverse = A ++ x :: B) (hc : Chain s'.next s'.cur (A ++ B) 0)
    (hch : s'.charged = s.charged) (hf : ∀ y, y ∉ S.known → s'.next y = 0)
    (sig : Nat → Bool) (hs : s'.signaled = sig) (hsf : ∀ y, y ∉ S.known → sig y = false) :
    Rep s' { S with waiting := S.waiting.erase x, sig := sig } := by
  have hw : S.waiting = B.reverse ++ x :: A.reverse := by
    have := congrArg List.reverse hW
    simpa using this
  have hx : x ∉ B.reverse := by
    have := r.nodup
    rw [hw, List.nodup_append] at this
    intro hh
    exact this.2.2 x hh x (by simp) rfl
  have he : S.waiting.erase x = B.reverse ++ A.reverse := by rw [hw, erase_mid hx]
  refine ⟨?_, fun y hy => r.nz y (List.mem_of_mem_erase hy), r.nodup.erase x,
    fun y => by rw [hch]; exact r.charged y, fun y hy => r.sub y (List.mem_of_mem_erase hy),
    fun y hy => ⟨hf y hy, by rw [hs]; exact hsf y hy⟩, hs⟩
  show Chain _ _ (S.waiting.erase x).reverse 0
  rw [he]; simpa using hc

theorem Rep.add {s S x} (r : Rep s S) (h0 : x ≠ 0) (f : Nat) (o : Order) :
    ∃ s', step f o s (.add x) = some ((S.step o (.add x)).1, s') ∧
      Rep s' (S.step o (.add x)).2 := by
  unfold step SyncPt.add Spec.step
  by_cases hk : x ∈ S.known
  · have : s.charged x = true := by rw [r.charged]; simpa using hk
    simp only [this, or_true, if_true, hk]
    exact ⟨s, rfl, r⟩
  · have hc : s.charged x = false := by rw [r.charged]; simpa using hk
    obtain ⟨hn, hs⟩ := r.fresh x hk
    simp only [hc, hn, hs, hk, ne_eq, not_true, Bool.false_eq_true, or_self, if_false]
    have hw : x ∉ S.waiting := fun hh => hk (r.sub x hh)
    refine ⟨_, rfl, ?_, ?_, ?_, ?_, ?_, ?_, r.sig⟩
    · simp only [List.reverse_append, List.reverse_cons, List.reverse_nil, List.nil_append,
        List.singleton_append]
      refine ⟨rfl, ?_⟩
      show Chain (upd s.next x s.cur) (upd s.next x s.cur x) _ 0
      rw [upd_same]
      exact r.chain.congr (fun a ha => upd_ne _ _ (fun hh => hw (by rw [← hh]; simpa using ha)))
    · intro y hy
      simp at hy
      rcases hy with hy | rfl
      · exact r.nz y hy
      · exact h0
    · simp only [List.nodup_append]
      refine ⟨r.nodup, by simp, ?_⟩
      intro a ha b hb
      simp at hb; subst hb
      exact fun hh => hw (hh ▸ ha)
    · intro y
      show upd s.charged x true y = _
      by_cases hy : y = x
      · subst hy; rw [upd_same]; simp
      · rw [upd_ne _ _ hy, r.charged]; simp [hy]
    · intro y hy
      simp at hy
      rcases hy with hy | rfl
      · simp [r.sub y hy]
      · simp
    · intro y hy
      simp at hy
      exact ⟨(upd_ne _ _ hy.1).trans (r.fresh y hy.2).1, (r.fresh y hy.2).2⟩

theorem Rep.sigf {s S} (r : Rep s S) : ∀ y, y ∉ S.known → S.sig y = false :=
  fun y hy => by rw [← r.sig]; exact (r.fresh y hy).2

theorem Rep.nextf {s S} (r : Rep s S) : ∀ y, y ∉ S.known → s.next y = 0 :=
  fun y hy => (r.fresh y hy).1

theorem Rep.memW {s S} (_ : Rep s S) {A B : List Nat} {q}
    (hW : S.waiting.reverse = A ++ q :: B) : q ∈ S.waiting := by
  rw [← List.mem_reverse, hW]; simp

theorem Rep.nextupd {s S} (r : Rep s S) {q v} (hq : q ∈ S.known) :
    ∀ y, y ∉ S.known → upd s.next q v y = 0 :=
  fun y hy => (upd_ne _ _ (fun hh => hy (by rw [hh]; exact hq))).trans (r.nextf y hy)

theorem Rep.remove {s S x} (r : Rep s S) (h0 : x ≠ 0) (f : Nat) (o : Order) (hf : S.waiting.length < f) :
    ∃ s', step f o s (.remove x) = some ((S.step o (.remove x)).1, s') ∧
      Rep s' (S.step o (.remove x)).2 := by
  unfold step SyncPt.remove Spec.step
  by_cases hk : x ∈ S.known
  case neg =>
    have hc : s.charged x = false := by rw [r.charged]; simpa using hk
    simp only [hc, hk, Bool.false_eq_true, if_false]
    exact ⟨s, rfl, r⟩
  have hc : s.charged x = true := by rw [r.charged]; simpa using hk
  simp only [hc, hk, if_true]
  generalize hW : S.waiting.reverse = W
  have hch := r.chain
  rw [hW] at hch
  have hmem : ∀ y, y ∈ S.waiting ↔ y ∈ W := fun y => by rw [← hW]; simp
  cases W with
  | nil =>
    have hc0 : s.cur = 0 := hch
    have hx : x ∉ S.waiting := by rw [hmem]; simp
    simp only [hc0, hx, if_true, if_false]
    exact ⟨s, rfl, r⟩
  | cons a W =>
    have ha : s.cur = a := hch.1
    have ha0 : a ≠ 0 := r.nz a ((hmem a).2 (by simp))
    rw [ha] at hch
    simp only [ha, if_neg ha0]
    by_cases hax : a = x
    · subst hax
      have hx : a ∈ S.waiting := (hmem a).2 (by simp)
      simp only [hx, if_true]
      refine ⟨_, rfl, ?_⟩
      exact r.erase { s with cur := s.next a } [] W hW hch.2 rfl r.nextf _ r.sig r.sigf
    · rw [if_neg hax]
      have hlen : W.length < f := by
        have := congrArg List.length hW
        simp at this; omega
      obtain ⟨A, q, B, h1, h2, h3⟩ := findPrev_spec (x := x) (fuel := f) W hch
        (fun b hb => r.nz b ((hmem b).2 (by simp [hb]))) hlen
      simp only [h2]
      have hnd : (A ++ q :: B).Nodup := by
        rw [← h1, ← hW]; exact nodup_rev r.nodup
      rcases h3 with ⟨h3, B, rfl⟩ | ⟨h3, h4⟩
      · have hxm : x ∈ S.waiting := by rw [hmem, h1]; simp
        have hqm : q ∈ S.waiting := by rw [hmem, h1]; simp
        simp only [h3, hxm, if_true]
        rw [h1] at hch
        have hqA : q ∉ A := by
          intro hh
          rw [List.nodup_append] at hnd
          exact hnd.2.2 q hh q (by simp) rfl
        have hqB : q ∉ B := by
          rw [List.nodup_append] at hnd
          have := (List.nodup_cons.1 hnd.2.1).1
          exact fun hh => this (by simp [hh])
        refine ⟨_, rfl, ?_⟩
        refine r.erase (x := x) { s with next := upd s.next q (s.next x), cur := a } (A ++ [q]) B
          (by rw [hW, h1]; simp) ?_ rfl (r.nextupd (r.sub q hqm)) _ r.sig r.sigf
        show Chain (upd s.next q (s.next x)) a (A ++ [q] ++ B) 0
        rw [List.append_assoc]
        obtain ⟨m, g1, g2⟩ := Chain.append.1 hch
        exact Chain.set hch hqA hqB g2.2.2
      · have hxm : x ∉ S.waiting := by
          rw [hmem]; simp [h3, Ne.symm hax]
        by_cases hq : s.next q = x
        · exact absurd (hq.symm.trans h4) h0
        · simp only [hq, hxm, if_false]
          exact ⟨s, rfl, r⟩

theorem Rep.pop {s S} (r : Rep s S) (f : Nat) (o : Order) (hf : S.waiting.length < f)
    (hne : S.waiting ≠ []) :
    ∃ x s', popSlot f o s = some (x, s') ∧ x ≠ 0 ∧
      (if o = .queue then S.waiting.head? else S.waiting.getLast?) = some x ∧
      Rep (notify s' x) { S with waiting := S.waiting.erase x, sig := upd S.sig x true } := by
  unfold popSlot
  generalize hW : S.waiting.reverse = W
  have hch := r.chain
  rw [hW] at hch
  have hmem : ∀ y, y ∈ S.waiting ↔ y ∈ W := fun y => by rw [← hW]; simp
  have hw : S.waiting = W.reverse := by rw [← hW]; simp
  have hsf : ∀ p ∈ S.waiting, ∀ y, y ∉ S.known → upd S.sig p true y = false :=
    fun p hp y hy => (upd_ne _ _ (fun hh => hy (by rw [hh]; exact r.sub p hp))).trans (r.sigf y hy)
  cases W with
  | nil => exact absurd hw hne
  | cons a W =>
    have ha : s.cur = a := hch.1
    have ha0 : a ≠ 0 := r.nz a ((hmem a).2 (by simp))
    rw [ha] at hch
    rw [if_pos (by rw [ha]; exact ha0)]
    have ham : a ∈ S.waiting := (hmem a).2 (by simp)
    have hnd : (a :: W).Nodup := by rw [← hW]; exact nodup_rev r.nodup
    -- the newest slot is taken
    have stack : Rep (SyncPt.notify { s with cur := s.next a, next := upd s.next a 0 } a)
        { S with waiting := S.waiting.erase a, sig := upd S.sig a true } := by
      refine r.erase (x := a) (SyncPt.notify { s with cur := s.next a, next := upd s.next a 0 } a)
        [] W hW ?_ rfl (r.nextupd (r.sub a ham)) _ ?_ (hsf a ham)
      · exact hch.2.congr (fun b hb => upd_ne _ _ (fun hh => (List.nodup_cons.1 hnd).1 (hh ▸ hb)))
      · show upd s.signaled a true = _
        rw [r.sig]
    cases W with
    | nil =>
      have hn : s.next a = 0 := hch.2
      rw [ha, if_neg (fun hh => hh.2 hn)]
      exact ⟨a, _, rfl, ha0, by rw [hw]; simp, stack⟩
    | cons b W =>
      have hn : s.next a = b := hch.2.1
      have hb0 : b ≠ 0 := r.nz b ((hmem b).2 (by simp))
      cases o with
      | stack =>
        rw [ha, if_neg (fun hh => by cases hh.1)]
        exact ⟨a, _, rfl, ha0, by rw [hw]; simp, stack⟩
      | queue =>
        rw [ha, if_pos ⟨rfl, by rw [hn]; exact hb0⟩]
        have hlen : W.length < f := by
          have := congrArg List.length hW
          simp at this; omega
        obtain ⟨A, q, p, h1, h2⟩ := toLast_spec (fuel := f) W hch
          (fun c hc => r.nz c ((hmem c).2 (List.mem_cons_of_mem _ hc))) hlen
        have hpm : p ∈ S.waiting := by rw [hmem, h1]; simp
        have hqm : q ∈ S.waiting := by rw [hmem, h1]; simp
        rw [h2]
        refine ⟨p, _, rfl, r.nz p hpm, by rw [hw, h1]; simp, ?_⟩
        refine r.erase (x := p) (SyncPt.notify { s with next := upd s.next q 0, cur := a } p)
          (A ++ [q]) [] (by rw [hW, h1]; simp) ?_ rfl (r.nextupd (r.sub q hqm)) _ ?_ (hsf p hpm)
        · rw [h1] at hch hnd
          have hqA : q ∉ A := by
            intro hh
            rw [List.nodup_append] at hnd
            exact hnd.2.2 q hh q (by simp) rfl
          show Chain (upd s.next q 0) a (A ++ [q] ++ []) 0
          rw [List.append_nil]
          exact Chain.set hch hqA (by simp) rfl
        · show upd s.signaled p true = _
          rw [r.sig]

theorem Rep.notifyOne {s S} (r : Rep s S) (f : Nat) (o : Order) (hf : S.waiting.length < f) :
    ∃ s', step f o s .notifyOne = some ((S.step o .notifyOne).1, s') ∧
      Rep s' (S.step o .notifyOne).2 := by
  unfold step SyncPt.notifyOne
  by_cases hne : S.waiting = []
  · have hc := r.chain
    rw [hne] at hc
    have h0 : s.cur = 0 := hc
    have hs : S.step o .notifyOne = ((false, []), S) := by
      unfold Spec.step; simp [hne]
    rw [hs]
    unfold popSlot
    rw [if_neg (fun hh => hh h0)]
    exact ⟨s, rfl, r⟩
  · obtain ⟨x, s', h1, h2, h3, h4⟩ := r.pop f o hf hne
    have hs : S.step o .notifyOne = ((true, [x]),
        { S with waiting := S.waiting.erase x, sig := upd S.sig x true }) := by
      unfold Spec.step; simp only [h3]
    rw [hs, h1]
    dsimp only
    rw [if_neg h2]
    exact ⟨_, rfl, h4⟩

theorem notifyLoop_spec : ∀ (W : List Nat) {s p f}, Chain s.next p W 0 → (∀ x ∈ W, x ≠ 0) →
    W.length < f → notifyLoop f s p =
      some (W, { s with signaled := (fun x => decide (x ∈ W) || s.signaled x) }) := by
  intro W
  induction W with
  | nil =>
    intro s p f h hz hf
    obtain ⟨f, rfl⟩ : ∃ g, f = g + 1 := ⟨f - 1, by simp at hf; omega⟩
    have : p = 0 := h
    unfold notifyLoop
    rw [if_pos this]
    simp
  | cons a W ih =>
    intro s p f h hz hf
    obtain ⟨f, rfl⟩ : ∃ g, f = g + 1 := ⟨f - 1, by simp at hf; omega⟩
    obtain ⟨rfl, h⟩ := h
    unfold notifyLoop
    rw [if_neg (hz p (by simp)), ih (s := notify s p) h (fun x hx => hz x (by simp [hx]))
      (by simp at hf; omega)]
    simp only [Option.map_some, Option.some.injEq, Prod.mk.injEq, true_and, notify, St.mk.injEq]
    funext x
    by_cases hx : x = p
    · subst hx; simp [upd_same]
    · rw [upd_ne _ _ hx]; simp [hx]

theorem Rep.notifyAll {s S} (r : Rep s S) (f : Nat) (o : Order) (hf : S.waiting.length < f) :
    ∃ s', step f o s .notifyAll = some ((S.step o .notifyAll).1, s') ∧
      Rep s' (S.step o .notifyAll).2 := by
  unfold step SyncPt.notifyAll Spec.step
  rw [notifyLoop_spec (s := { s with cur := 0 }) _ r.chain
    (fun x hx => r.nz x (by simpa using hx)) (by simpa using hf)]
  simp only [Option.map_some, List.isEmpty_reverse, List.mem_reverse, Option.some.injEq,
    Prod.mk.injEq, true_and]
  refine ⟨_, rfl, rfl, by simp, by simp, r.charged, by simp, ?_, ?_⟩
  · intro y hy
    refine ⟨r.nextf y hy, ?_⟩
    have : y ∉ S.waiting := fun hh => hy (r.sub y hh)
    simp [this, (r.fresh y hy).2]
  · funext y
    show _ = _
    rw [r.sig]

theorem Rep.reset {s S x} (r : Rep s S) (f : Nat) (o : Order) :
    ∃ s', step f o s (.reset x) = some ((S.step o (.reset x)).1, s') ∧
      Rep s' (S.step o (.reset x)).2 := by
  unfold step SyncPt.reset Spec.step
  rw [← r.sig]
  by_cases h : s.signaled x = true
  · simp only [h, if_true]
    refine ⟨_, rfl, r.chain, r.nz, r.nodup, r.charged, r.sub, ?_, rfl⟩
    intro y hy
    refine ⟨r.nextf y hy, ?_⟩
    show upd s.signaled x false y = false
    by_cases hx : y = x
    · subst hx; rw [upd_same]
    · rw [upd_ne _ _ hx]; exact (r.fresh y hy).2
  · have h' : s.signaled x = false := by simpa using h
    simp only [h', Bool.false_eq_true, if_false]
    refine ⟨_, rfl, r.chain, r.nz, r.nodup, r.charged, r.sub, r.fresh, ?_⟩
    show s.signaled = upd s.signaled x false
    funext y
    by_cases hx : y = x
    · subst hx; rw [upd_same, h']
    · rw [upd_ne _ _ hx]

theorem Rep.step {s S op} (r : Rep s S) (hv : op.valid) (f : Nat) (o : Order)
    (hf : S.waiting.length < f) :
    ∃ s', SyncPt.step f o s op = some ((S.step o op).1, s') ∧ Rep s' (S.step o op).2 := by
  cases op with
  | add x => exact r.add hv f o
  | remove x => exact r.remove hv f o hf
  | notifyOne => exact r.notifyOne f o hf
  | notifyAll => exact r.notifyAll f o hf
  | reset x => exact r.reset f o

theorem Spec.step_length (o : Order) (S : Spec) (op : Op) :
    (S.step o op).2.waiting.length ≤ S.waiting.length + 1 := by
  cases op with
  | add x => unfold Spec.step; dsimp only; split <;> simp
  | remove x =>
    unfold Spec.step; dsimp only
    split
    · split
      · exact Nat.le_succ_of_le (List.length_erase_le)
      · simp
    · simp
  | notifyOne =>
    unfold Spec.step; dsimp only
    split
    · simp
    · exact Nat.le_succ_of_le (List.length_erase_le)
  | notifyAll => simp [Spec.step]
  | reset x => simp [Spec.step]

theorem Rep.run {o f} : ∀ (ops : List Op) {s S}, Rep s S → (∀ op ∈ ops, op.valid) →
    S.waiting.length + ops.length < f + 1 → SyncPt.run f o s ops = some (S.run o ops) := by
  intro ops
  induction ops with
  | nil => intros; rfl
  | cons op ops ih =>
    intro s S r hv hf
    simp only [List.length_cons] at hf
    obtain ⟨s', h1, h2⟩ := r.step (hv op (by simp)) f o (by omega)
    have := Spec.step_length o S op
    unfold SyncPt.run Spec.run
    rw [h1]
    show Option.map _ _ = _
    rw [ih h2 (fun op h => hv op (by simp [h])) (by omega)]
    rfl

/-! ## C38 -/

/-- C38: a synchronisation point behaves as a queue (or a stack) of waiting slots: for each
sequence of calls and each order, the results of the calls and the slots they notify are those of
the specification; no walk over the chain fails to end or leaves the chain. -/
theorem c38_refines (o : Order) (ops : List Op) (hv : ∀ op ∈ ops, op.valid) (f : Nat)
    (hf : ops.length ≤ f) : run f o {} ops = some (Spec.run o {} ops) :=
  Rep.init.run ops hv (by simpa using Nat.lt_succ_of_le hf)

/-- Slots 1, 2, 3 come, 2 gives up; the queue serves the oldest, the stack the newest. -/
example : run 9 .queue {} [.add 1, .add 2, .add 3, .remove 2, .notifyOne, .remove 1, .reset 1,
      .notifyAll, .notifyOne] =
    some [(true, []), (true, []), (true, []), (true, []), (true, [1]), (false, []), (true, []),
      (true, [3]), (false, [])] := by decide

example : run 9 .stack {} [.add 1, .add 2, .add 3, .remove 2, .notifyOne, .notifyOne] =
    some [(true, []), (true, []), (true, []), (true, []), (true, [3]), (true, [1])] := by decide

theorem Spec.step_once (o : Order) (S : Spec) (op : Op) (hnd : S.waiting.Nodup)
    (hsub : ∀ x ∈ S.waiting, x ∈ S.known) :
    (S.step o op).2.waiting.Nodup ∧ (∀ x ∈ (S.step o op).2.waiting, x ∈ (S.step o op).2.known) ∧
    (∀ x ∈ S.known, x ∈ (S.step o op).2.known) ∧
    (S.step o op).1.2.Nodup ∧ (∀ x ∈ (S.step o op).1.2, x ∈ S.waiting) ∧
    (∀ x ∈ (S.step o op).1.2, x ∉ (S.step o op).2.waiting) ∧
    (∀ x ∈ S.known, x ∉ S.waiting → x ∉ (S.step o op).2.waiting) := by
  cases op with
  | add x =>
    unfold Spec.step; dsimp only
    split
    · exact ⟨hnd, hsub, fun _ h => h, by simp, by simp, by simp, fun _ _ h => h⟩
    · rename_i hk
      have hw : x ∉ S.waiting := fun hh => hk (hsub x hh)
      refine ⟨?_, ?_, fun y h => by simp [h], by simp, by simp, by simp, ?_⟩
      · rw [List.nodup_append]
        refine ⟨hnd, by simp, fun a ha b hb => ?_⟩
        simp at hb; subst hb
        exact fun hh => hw (hh ▸ ha)
      · intro y hy
        simp at hy
        rcases hy with hy | rfl
        · simp [hsub y hy]
        · simp
      · intro y hy hyw
        simp only [List.mem_append, List.mem_singleton, not_or]
        exact ⟨hyw, fun hh => hk (hh ▸ hy)⟩
  | remove x =>
    unfold Spec.step; dsimp only
    split
    · split
      · exact ⟨hnd.erase x, fun y hy => hsub y (List.mem_of_mem_erase hy), fun _ h => h, by simp,
          by simp, by simp, fun y _ h hh => h (List.mem_of_mem_erase hh)⟩
      · exact ⟨hnd, hsub, fun _ h => h, by simp, by simp, by simp, fun _ _ h => h⟩
    · exact ⟨hnd, hsub, fun _ h => h, by simp, by simp, by simp, fun _ _ h => h⟩
  | notifyOne =>
    unfold Spec.step; dsimp only
    split
    · exact ⟨hnd, hsub, fun _ h => h, by simp, by simp, by simp, fun _ _ h => h⟩
    · rename_i x hx
      have hxm : x ∈ S.waiting := by
        split at hx
        · exact List.mem_of_mem_head? hx
        · exact List.mem_of_getLast? hx
      refine ⟨hnd.erase x, fun y hy => hsub y (List.mem_of_mem_erase hy), fun _ h => h, by simp,
        by simpa using hxm, ?_, fun y _ h hh => h (List.mem_of_mem_erase hh)⟩
      intro y hy
      simp at hy; subst hy
      exact hnd.not_mem_erase
  | notifyAll =>
    exact ⟨by simp [Spec.step], by simp [Spec.step], fun _ h => h, nodup_rev hnd,
      fun x hx => List.mem_reverse.1 hx, by simp [Spec.step], by simp [Spec.step]⟩
  | reset x => exact ⟨hnd, hsub, fun _ h => h, by simp [Spec.step], by simp [Spec.step],
      by simp [Spec.step], fun _ _ h => h⟩

theorem Spec.run_not (o : Order) (x : Nat) : ∀ (ops : List Op) (S : Spec), S.waiting.Nodup →
    (∀ y ∈ S.waiting, y ∈ S.known) → x ∈ S.known → x ∉ S.waiting →
    ∀ r ∈ S.run o ops, x ∉ r.2 := by
  intro ops
  induction ops with
  | nil => intro S _ _ _ _ r hr; simp [Spec.run] at hr
  | cons op ops ih =>
    intro S hnd hsub hk hw r hr
    obtain ⟨h1, h2, h3, -, h5, -, h7⟩ := Spec.step_once o S op hnd hsub
    simp only [Spec.run, List.mem_cons] at hr
    rcases hr with rfl | hr
    · exact fun hh => hw (h5 x hh)
    · exact ih _ h1 h2 (h3 x hk) (h7 x hk hw) r hr

theorem Spec.run_once (o : Order) : ∀ (ops : List Op) (S : Spec), S.waiting.Nodup →
    (∀ y ∈ S.waiting, y ∈ S.known) → ((S.run o ops).flatMap (·.2)).Nodup := by
  intro ops
  induction ops with
  | nil => intros; simp [Spec.run]
  | cons op ops ih =>
    intro S hnd hsub
    obtain ⟨h1, h2, h3, h4, h5, h6, h7⟩ := Spec.step_once o S op hnd hsub
    simp only [Spec.run, List.flatMap_cons, List.nodup_append]
    refine ⟨h4, ih _ h1 h2, fun a ha b hb hab => ?_⟩
    subst hab
    obtain ⟨r, hr, hb⟩ := List.mem_flatMap.1 hb
    exact Spec.run_not o a ops _ h1 h2 (h3 a (hsub a (h5 a ha))) (h6 a ha) r hr hb

/-- C38: in no execution a slot is notified twice. -/
theorem c38_once (o : Order) (ops : List Op) (hv : ∀ op ∈ ops, op.valid) (f : Nat)
    (hf : ops.length ≤ f) {outs} (h : run f o {} ops = some outs) : (outs.flatMap (·.2)).Nodup := by
  rw [c38_refines o ops hv f hf] at h
  cases h
  exact Spec.run_once o ops {} (by simp) (by simp)

theorem Spec.run_append (o : Order) : ∀ (A B : List Op) (S : Spec), ∃ S' : Spec,
    S.run o (A ++ B) = S.run o A ++ S'.run o B ∧ (S.waiting.Nodup →
      (∀ y ∈ S.waiting, y ∈ S.known) → S'.waiting.Nodup ∧ ∀ y ∈ S'.waiting, y ∈ S'.known) ∧
    (∀ x ∈ S.known, x ∈ S'.known) := by
  intro A
  induction A with
  | nil => intro B S; exact ⟨S, rfl, fun h1 h2 => ⟨h1, h2⟩, fun _ h => h⟩
  | cons op A ih =>
    intro B S
    obtain ⟨S', h1, h2, h3⟩ := ih B (S.step o op).2
    refine ⟨S', by simp [Spec.run, h1], fun hn hs => ?_, fun x hx => h3 x ?_⟩
    · obtain ⟨g1, g2, -⟩ := Spec.step_once o S op hn hs
      exact h2 g1 g2
    · cases op with
      | add y => unfold Spec.step; dsimp only; split <;> simp [hx]
      | remove y => unfold Spec.step; dsimp only; split <;> (try split) <;> exact hx
      | notifyOne => unfold Spec.step; dsimp only; split <;> exact hx
      | notifyAll => exact hx
      | reset y => exact hx

theorem Spec.run_length (o : Order) : ∀ (A : List Op) (S : Spec), (S.run o A).length = A.length := by
  intro A
  induction A with
  | nil => intro S; rfl
  | cons op A ih => intro S; simp [Spec.run, ih]

/-- C38: a slot which was removed with success after it was registered is not notified later:
after `add x` (before `A`) and a successful `remove x` no call of `B` notifies `x`. -/
theorem c38_removed (o : Order) (x : Nat) (P A B : List Op) (f : Nat)
    (hv : ∀ op ∈ P ++ .add x :: (A ++ .remove x :: B), op.valid)
    (hf : (P ++ Op.add x :: (A ++ Op.remove x :: B)).length ≤ f) {outs}
    (h : run f o {} (P ++ .add x :: (A ++ .remove x :: B)) = some outs)
    (hok : outs[P.length + 1 + A.length]? = some (true, [])) :
    ∀ r ∈ outs.drop (P.length + 1 + A.length), x ∉ r.2 := by
  rw [c38_refines o _ hv f hf] at h
  cases h
  obtain ⟨S1, h1, g1, -⟩ := Spec.run_append o P (.add x :: (A ++ .remove x :: B)) {}
  obtain ⟨n1, s1⟩ := g1 (by simp) (by simp)
  obtain ⟨n2, s2, -⟩ := Spec.step_once o S1 (.add x) n1 s1
  have k2 : x ∈ (S1.step o (.add x)).2.known := by
    unfold Spec.step; dsimp only; split
    · assumption
    · simp
  obtain ⟨S3, h3, g3, k3⟩ := Spec.run_append o A (.remove x :: B) (S1.step o (.add x)).2
  obtain ⟨n3, s3⟩ := g3 n2 s2
  have k3 := k3 x k2
  have e : Spec.run o {} (P ++ .add x :: (A ++ .remove x :: B)) =
      (Spec.run o {} P ++ (S1.step o (.add x)).1 :: (S1.step o (.add x)).2.run o A) ++
        ((S3.step o (.remove x)).1 :: (S3.step o (.remove x)).2.run o B) := by
    rw [h1]
    show _ ++ ((S1.step o (.add x)).1 :: (S1.step o (.add x)).2.run o (A ++ .remove x :: B)) = _
    rw [h3]; simp [Spec.run]
  have el : (Spec.run o {} P ++ (S1.step o (.add x)).1 :: (S1.step o (.add x)).2.run o A).length =
      P.length + 1 + A.length := by
    simp [Spec.run_length]; omega
  rw [e] at hok ⊢
  rw [← el] at hok ⊢
  rw [List.getElem?_append_right (Nat.le_refl _)] at hok
  rw [List.drop_left]
  intro r hr
  simp only [Nat.sub_self, List.getElem?_cons_zero, Option.some.injEq] at hok
  obtain ⟨n4, s4, k4, -, -, -, w4⟩ := Spec.step_once o S3 (.remove x) n3 s3
  simp only [List.mem_cons] at hr
  rcases hr with rfl | hr
  · rw [hok]; simp
  · refine Spec.run_not o x B _ n4 s4 (k4 x k3) ?_ r hr
    unfold Spec.step at hok ⊢
    dsimp only at hok ⊢
    rw [if_pos k3] at hok ⊢
    by_cases hw : x ∈ S3.waiting
    · rw [if_pos hw]; exact n3.not_mem_erase
    · rw [if_neg hw] at hok; cases hok

/-- Slot 5 is removed; the calls after it notify others only. -/
example : run 9 .queue {} ([.add 4] ++ .add 5 :: ([.add 6] ++ .remove 5 :: [.notifyAll])) =
    some [(true, []), (true, []), (true, []), (true, []), (true, [6, 4])] := by decide

/-! ## C70: reuse of a slot -/

/-- C70 (violated): a slot that was notified and reset should be usable again.  `charged` is never
cleared, so `add` refuses it, and a `notifyOne` after it finds nobody. -/
theorem c70_reuse_violated (o : Order) :
    run 9 o {} [.add 1, .notifyOne, .reset 1, .add 1, .notifyOne] =
      some [(true, []), (true, [1]), (true, []), (false, []), (false, [])] := by
  cases o <;> decide

/-- C70: this is so for each slot in each history: once `x` was registered, each later `add x`
is refused. -/
theorem c70_refused_always (o : Order) (x : Nat) (P A : List Op) (f : Nat)
    (hv : ∀ op ∈ P ++ .add x :: (A ++ [.add x]), op.valid)
    (hf : (P ++ Op.add x :: (A ++ [Op.add x])).length ≤ f) :
    ∃ outs, run f o {} (P ++ .add x :: (A ++ [.add x])) = some outs ∧
      outs.getLast? = some (false, []) := by
  rw [c38_refines o _ hv f hf]
  refine ⟨_, rfl, ?_⟩
  obtain ⟨S1, h1, -, -⟩ := Spec.run_append o P (.add x :: (A ++ [.add x])) {}
  have k2 : x ∈ (S1.step o (.add x)).2.known := by
    unfold Spec.step; dsimp only; split
    · assumption
    · simp
  obtain ⟨S3, h3, -, k3⟩ := Spec.run_append o A [.add x] (S1.step o (.add x)).2
  have k3 := k3 x k2
  rw [h1]
  show (_ ++ ((S1.step o (.add x)).1 :: (S1.step o (.add x)).2.run o (A ++ [.add x]))).getLast? = _
  rw [h3]
  have : (S3.step o (.add x)).1 = (false, []) := by
    unfold Spec.step; dsimp only; rw [if_pos k3]
  simp [Spec.run, this, List.getLast?_append, List.getLast?_cons]

end LS.SyncPt
