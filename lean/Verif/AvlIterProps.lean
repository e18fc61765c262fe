import Verif.AvlIter
import Verif.AvlTreeProps
/-!
# C20, C21: iteration over the AVL tree, removal through an iterator
-/

namespace LS.Avl

set_option linter.unusedSectionVars false

variable {K : Type} [DecidableEq K]

namespace Tree

/-- The keys in the direction of the iteration. -/
def keys (d : Bool) (t : Tree K) : List K := if d then t.toList.reverse else t.toList

theorem keys_node (d : Bool) (l r : Tree K) (b : Int) (k : K) :
    keys d (node l b k r) = keys d ((node l b k r).link d) ++ k :: keys d ((node l b k r).link (!d)) := by
  cases d <;> simp [keys, toList, link]

theorem mem_keys (d : Bool) (t : Tree K) (x : K) : x ∈ keys d t ↔ x ∈ t.toList := by
  cases d <;> simp [keys]

/-- `p` is the path (the last node first) to the key at the head of `rem`; `rem` are the keys from
it on. -/
inductive At (d : Bool) : Tree K → List K → List K → Prop
  | here {l b k r} : At d (node l b k r) [k] (k :: keys d ((node l b k r).link (!d)))
  | near {l b k r p rem} : At d ((node l b k r).link d) p rem →
      At d (node l b k r) (p ++ [k]) (rem ++ k :: keys d ((node l b k r).link (!d)))
  | far {l b k r p rem} : At d ((node l b k r).link (!d)) p rem →
      At d (node l b k r) (p ++ [k]) rem

theorem At.head {d : Bool} {t : Tree K} {p rem} (h : At d t p rem) :
    ∃ c p' rest, p = c :: p' ∧ rem = c :: rest := by
  induction h with
  | here => exact ⟨_, _, _, rfl, rfl⟩
  | near _ ih =>
    obtain ⟨c, p', rest, rfl, rfl⟩ := ih
    exact ⟨c, _, _, rfl, rfl⟩
  | far _ ih =>
    obtain ⟨c, p', rest, rfl, rfl⟩ := ih
    exact ⟨c, _, _, rfl, rfl⟩

theorem At.suffix {d : Bool} {t : Tree K} {p rem} (h : At d t p rem) :
    ∃ before, keys d t = before ++ rem := by
  induction h with
  | here => rw [keys_node]; exact ⟨_, rfl⟩
  | near _ ih =>
    obtain ⟨bf, h⟩ := ih
    rw [keys_node, h]; exact ⟨bf, by simp⟩
  | @far l b k r p rem _ ih =>
    obtain ⟨bf, h⟩ := ih
    rw [keys_node, h]; exact ⟨keys d ((node l b k r).link d) ++ k :: bf, by simp⟩

theorem height_link (d : Bool) (l r : Tree K) (b : Int) (k : K) :
    ((node l b k r).link d).height + 1 ≤ (node l b k r).height := by
  cases d <;> simp [link, height] <;> omega

theorem At.length {d : Bool} {t : Tree K} {p rem} (h : At d t p rem) : p.length ≤ t.height := by
  induction h with
  | @here l b k r => simp [height]
  | @near l b k r p rem _ ih => have := height_link d l r b k; simp; omega
  | @far l b k r p rem _ ih => have := height_link (!d) l r b k; simp; omega

/-- The first node. -/
theorem at_down {d : Bool} {t : Tree K} {n : Nat} (hn : t.height ≤ n) (ht : t.isNil = false) :
    At d t (down d n t) (keys d t) := by
  induction n generalizing t with
  | zero => cases t <;> simp [height, isNil] at *
  | succ n ih =>
    cases t with
    | nil => simp [isNil] at ht
    | node l b k r =>
      have e : down d (n + 1) (node l b k r) = down d n ((node l b k r).link d) ++ [k] := by
        cases d <;> rfl
      have hh := height_link d l r b k
      rw [e, keys_node]
      cases hl : ((node l b k r).link d).isNil
      · exact .near (ih (by omega) hl)
      · have hnil : (node l b k r).link d = nil := by
          cases h : (node l b k r).link d with
          | nil => rfl
          | node a1 a2 a3 a4 => rw [h] at hl; cases hl
        have e1 : down d n ((node l b k r).link d) = [] := by rw [hnil]; cases n <;> rfl
        have e2 : keys d ((node l b k r).link d) = [] := by rw [hnil]; cases d <;> rfl
        rw [e1, e2]
        exact .here

/-- `s` is a part of `t`. -/
def Part (s t : Tree K) : Prop := ∀ x ∈ s.toList, t.nodeOf x = s.nodeOf x

theorem nodeOf_not_mem {t : Tree K} {x : K} (h : x ∉ t.toList) : t.nodeOf x = nil := by
  induction t with
  | nil => rfl
  | node l b k r ihl ihr =>
    simp [toList] at h
    simp [nodeOf, h.2.1, ihl h.1, ihr h.2.2, isNil]

theorem nodeOf_mem {t : Tree K} {x : K} (h : x ∈ t.toList) : (t.nodeOf x).isNil = false := by
  induction t with
  | nil => simp [toList] at h
  | node l b k r ihl ihr =>
    simp [toList] at h
    unfold nodeOf
    split
    · rfl
    · rename_i hk
      split
      · rename_i hn
        rcases h with h | h | h
        · rw [ihl h] at hn; cases hn
        · exact absurd h hk
        · exact ihr h
      · rename_i hn; simpa using hn

theorem part_link {l r : Tree K} {b : Int} {k : K} {t : Tree K} (d : Bool)
    (hnd : (node l b k r).toList.Nodup) (h : Part (node l b k r) t) :
    Part ((node l b k r).link d) t := by
  simp only [toList, List.nodup_append, List.nodup_cons] at hnd
  obtain ⟨n1, ⟨n2, n3⟩, n4⟩ := hnd
  intro x hx
  cases d
  · simp only [link, Bool.false_eq_true, if_false] at hx ⊢
    rw [h x (by simp [toList, hx])]
    simp [nodeOf, n4 x hx k (by simp), nodeOf_mem hx]
  · simp only [link, if_true] at hx ⊢
    rw [h x (by simp [toList, hx])]
    have h1 : x ∉ l.toList := fun hh => n4 x hh x (by simp [hx]) rfl
    have h2 : x ≠ k := fun hh => n2 (hh ▸ hx)
    simp [nodeOf, h2, nodeOf_not_mem h1, isNil]

theorem nodup_link {l r : Tree K} {b : Int} {k : K} (d : Bool)
    (hnd : (node l b k r).toList.Nodup) : ((node l b k r).link d).toList.Nodup := by
  simp only [toList, List.nodup_append, List.nodup_cons] at hnd
  cases d
  · exact hnd.1
  · exact hnd.2.1.2

theorem root_mem {t : Tree K} (h : t.isNil = false) : ∃ x ∈ t.toList, t.root? = some x := by
  cases t with
  | nil => cases h
  | node l b k r => exact ⟨k, by simp [toList], rfl⟩

theorem at_notNil {d : Bool} {t : Tree K} {p rem} (h : At d t p rem) : t.isNil = false := by
  cases h <;> rfl

/-- Root of a part, as a key. -/
theorem root_ne {l r : Tree K} {b : Int} {k c : K} (d : Bool)
    (hnd : (node l b k r).toList.Nodup) (hc : ((node l b k r).link (!d)).root? = some c) :
    ((node l b k r).link d).root? ≠ some c := by
  simp only [toList, List.nodup_append, List.nodup_cons] at hnd
  obtain ⟨n1, ⟨n2, n3⟩, n4⟩ := hnd
  intro h
  have hm : ∀ t : Tree K, t.root? = some c → c ∈ t.toList := by
    intro t ht
    cases t with
    | nil => cases ht
    | node _ _ _ _ => cases ht; simp [toList]
  have h1 := hm _ hc
  have h2 := hm _ h
  cases d
  · simp [link] at h1 h2
    exact n4 c h2 c (by simp [h1]) rfl
  · simp [link] at h1 h2
    exact n4 c h1 c (by simp [h2]) rfl

/-- One step of the iterator. -/
theorem goNext_at {d : Bool} {t s : Tree K} {p rem q : List K} (h : At d s p rem)
    (hp : Part s t) (hnd : s.toList.Nodup) (hq : q.length + s.height ≤ maxPathLen) :
    ∃ c rest, rem = c :: rest ∧
      ((rest = [] ∧ ∃ rt, s.root? = some rt ∧ goNext t d (p ++ q) = .ok (up t d rt q)) ∨
       ∃ p', At d s p' rest ∧ goNext t d (p ++ q) = .ok (p' ++ q)) := by
  induction h generalizing q with
  | @here l b k r =>
    refine ⟨k, _, rfl, ?_⟩
    have hk : t.nodeOf k = node l b k r := by
      rw [hp k (by simp [toList])]; simp [nodeOf]
    have hh := height_link (!d) l r b k
    cases hf : ((node l b k r).link (!d)).isNil
    · right
      refine ⟨down d (maxPathLen - (q.length + 1)) ((node l b k r).link (!d)) ++ [k],
        .far (at_down (by omega) hf), ?_⟩
      have h0 : 0 < ((node l b k r).link (!d)).height := by
        rcases Nat.eq_zero_or_pos ((node l b k r).link (!d)).height with h | h
        · rw [(height_nil_iff _).1 h] at hf; cases hf
        · exact h
      have hlt : q.length + 1 < maxPathLen := by omega
      simp [goNext, hk, hf, hlt]
      rfl
    · left
      have hnil : (node l b k r).link (!d) = nil := by
        cases h : (node l b k r).link (!d) with
        | nil => rfl
        | node a1 a2 a3 a4 => rw [h] at hf; cases hf
      refine ⟨by rw [hnil]; cases d <;> rfl, k, rfl, ?_⟩
      simp [goNext, hk, hf]
      rfl
  | @near l b k r p rem h ih =>
    have hh := height_link d l r b k
    obtain ⟨c, rest, rfl, hc⟩ := ih (part_link d hnd hp) (nodup_link d hnd) (q := k :: q)
      (by simp; omega)
    refine ⟨c, rest ++ k :: keys d ((node l b k r).link (!d)), rfl, .inr ?_⟩
    have hk : t.nodeOf k = node l b k r := by
      rw [hp k (by simp [toList])]; simp [nodeOf]
    rcases hc with ⟨rfl, rt, hrt, he⟩ | ⟨p', hp', he⟩
    · refine ⟨[k], .here, ?_⟩
      rw [List.append_assoc, List.singleton_append, he]
      simp [up, hk, hrt]
    · exact ⟨p' ++ [k], .near hp', by rw [List.append_assoc, List.singleton_append, he]; simp⟩
  | @far l b k r p rem h ih =>
    have hh := height_link (!d) l r b k
    obtain ⟨c, rest, rfl, hc⟩ := ih (part_link (!d) hnd hp) (nodup_link (!d) hnd) (q := k :: q)
      (by simp; omega)
    refine ⟨c, rest, rfl, ?_⟩
    have hk : t.nodeOf k = node l b k r := by
      rw [hp k (by simp [toList])]; simp [nodeOf]
    rcases hc with ⟨rfl, rt, hrt, he⟩ | ⟨p', hp', he⟩
    · left
      refine ⟨rfl, k, rfl, ?_⟩
      rw [List.append_assoc, List.singleton_append, he]
      have := root_ne d hnd hrt
      simp [up, hk, this]
    · exact .inr ⟨p' ++ [k], .far hp', by rw [List.append_assoc, List.singleton_append, he]; simp⟩

/-- One step in the whole tree. -/
theorem goNext_step {d : Bool} {t : Tree K} {p rem : List K} (h : At d t p rem)
    (hnd : t.toList.Nodup) (hq : t.height ≤ maxPathLen) :
    ∃ c rest p', rem = c :: rest ∧ goNext t d p = .ok p' ∧
      ((rest = [] ∧ p' = []) ∨ At d t p' rest) := by
  obtain ⟨c, rest, e, h⟩ := goNext_at (q := []) h (fun _ _ => rfl) hnd (by simpa using hq)
  simp only [List.append_nil] at h
  rcases h with ⟨h1, rt, _, h2⟩ | ⟨p', h1, h2⟩
  · exact ⟨c, rest, [], e, h2, .inl ⟨h1, rfl⟩⟩
  · exact ⟨c, rest, p', e, h2, .inr h1⟩

theorem walk_at {d : Bool} {t : Tree K} {p rem : List K} (hnd : t.toList.Nodup)
    (hq : t.height ≤ maxPathLen) (h : At d t p rem) {n : Nat} (hn : rem.length ≤ n) :
    walk t d n p = .ok rem := by
  induction n generalizing p rem with
  | zero =>
    obtain ⟨c, p', rest, rfl, rfl⟩ := h.head
    simp at hn
  | succ n ih =>
    obtain ⟨c, p', rest, rfl, rfl⟩ := h.head
    obtain ⟨c', rest', p'', e, hg, hc⟩ := goNext_step h hnd hq
    cases e
    simp only [walk, hg]
    rcases hc with ⟨rfl, rfl⟩ | hc
    · cases n <;> simp [walk, Except.map]
    · rw [ih hc (by simpa using hn)]; rfl

/-- C20: the iteration from the beginning visits the keys in order (backward: in the reverse
order), each of them once, and stops. -/
theorem c20_iterate {t : Tree K} (d : Bool) (hnd : t.toList.Nodup) (hq : t.height ≤ 64) {n : Nat}
    (hn : t.toList.length ≤ n) :
    walk t d n (begin t d) = .ok (if d then t.toList.reverse else t.toList) := by
  cases h : t.isNil
  · exact walk_at hnd hq (at_down hq h) (by cases d <;> simpa [keys] using hn)
  · cases t with
    | nil => cases d <;> cases n <;> rfl
    | node _ _ _ _ => cases h

/-! ## Seeking -/

theorem at_here {d : Bool} {l r : Tree K} {b : Int} {k : K} {m : List K}
    (h : m = keys d ((node l b k r).link (!d))) : At d (node l b k r) [k] (k :: m) := by
  subst h; exact .here

/-- The path of a search. -/
theorem search_at {lt : K → K → Bool} (W : StrictWeak lt) (x : K) {t : Tree K} {e : Bool}
    (hs : Sorted lt t.toList) (ht : t.isNil = false) :
    ∃ A c B, t.toList = A ++ c :: B ∧ At false t (search lt x e t).1 (c :: B) ∧
      At true t (search lt x e t).1 (c :: A.reverse) ∧
      ((search lt x e t).2.1 = true → Same lt x c) ∧
      ((search lt x e t).2.1 = false →
        if (search lt x e t).2.2 then lt c x = true else lt x c = true) ∧
      (∀ y ∈ A, lt y x = true) ∧ ∀ y ∈ B, lt x y = true := by
  induction t generalizing e with
  | nil => cases ht
  | node l b k r ihl ihr =>
    clear ht
    simp only [toList] at hs
    unfold Sorted at hs
    rw [List.pairwise_append, List.pairwise_cons] at hs
    obtain ⟨s1, ⟨s2, s3⟩, s4⟩ := hs
    unfold search
    simp only
    split
    · rename_i hx
      have hr : ∀ y ∈ r.toList, lt x y = true := fun y hy => W.trans _ _ _ hx (s2 y hy)
      cases hl : l.isNil
      · obtain ⟨A, c, B, e1, a1, a2, f1, f2, b1, b2⟩ := ihl (e := false) s1 hl
        refine ⟨A, c, B ++ k :: r.toList, by simp [toList, e1], ?_, ?_, f1, f2, b1, ?_⟩
        · exact At.near (d := false) (l := l) (r := r) (b := b) (k := k) a1
        · exact At.far (d := true) (l := l) (r := r) (b := b) (k := k) a2
        · intro y hy
          simp only [List.mem_append, List.mem_cons] at hy
          rcases hy with hy | hy | hy
          · exact b2 y hy
          · subst hy; exact hx
          · exact hr y hy
      · cases l with
        | nil =>
          simp only [search]
          refine ⟨[], k, r.toList, rfl, at_here ?_, at_here ?_, by simp, by simpa using hx,
            by simp, hr⟩
          · simp [keys, link]
          · simp [keys, link, toList]
        | node _ _ _ _ => cases hl
    · rename_i hx1
      split
      · rename_i hx
        have hr : ∀ y ∈ l.toList, lt y x = true :=
          fun y hy => W.trans _ _ _ (s4 y hy k (by simp)) hx
        cases hl : r.isNil
        · obtain ⟨A, c, B, e1, a1, a2, f1, f2, b1, b2⟩ := ihr (e := true) s3 hl
          refine ⟨l.toList ++ k :: A, c, B, by simp [toList, e1], ?_, ?_, f1, f2, ?_, b2⟩
          · exact At.far (d := false) (l := l) (r := r) (b := b) (k := k) a1
          · have := At.near (d := true) (l := l) (r := r) (b := b) (k := k) a2
            simpa [keys, link] using this
          · intro y hy
            simp only [List.mem_append, List.mem_cons] at hy
            rcases hy with hy | hy | hy
            · exact hr y hy
            · subst hy; exact hx
            · exact b1 y hy
        · cases r with
          | nil =>
            simp only [search]
            refine ⟨l.toList, k, [], by simp [toList], at_here ?_, at_here ?_, by simp,
              by simpa using hx, hr, by simp⟩
            · simp [keys, link, toList]
            · simp [keys, link]
          | node _ _ _ _ => cases hl
      · rename_i hx2
        have hsame : Same lt x k := ⟨by simpa using hx1, by simpa using hx2⟩
        refine ⟨l.toList, k, r.toList, rfl, at_here ?_, at_here ?_, fun _ => hsame, by simp, ?_, ?_⟩
        · simp [keys, link]
        · simp [keys, link]
        · intro y hy
          rcases W.weak y k x (s4 y hy k (by simp)) with h | h
          · exact h
          · rw [hsame.1] at h; cases h
        · intro y hy
          rcases W.weak k y x (s2 y hy) with h | h
          · rw [hsame.2] at h; cases h
          · exact h

theorem filter_split {lt : K → K → Bool} (f : K → Bool) {A B : List K} (hA : ∀ y ∈ A, f y = false)
    (hB : ∀ y ∈ B, f y = true) : (A ++ B).filter f = B := by
  rw [List.filter_append, List.filter_eq_self.2 hB, List.filter_eq_nil_iff.2 (fun y hy => by
    rw [hA y hy]; simp)]; rfl

theorem sorted_nodup {lt : K → K → Bool} (W : StrictWeak lt) {l : List K} (h : Sorted lt l) :
    l.Nodup :=
  List.Pairwise.imp (fun {a b} hab heq => by rw [heq, W.irrefl] at hab; cases hab) h

theorem lt_asymm {lt : K → K → Bool} (W : StrictWeak lt) {a b : K} (h : lt a b = true) :
    lt b a = false := by
  cases h' : lt b a with
  | false => rfl
  | true => have := W.trans _ _ _ h h'; rw [W.irrefl] at this; cases this

/-- C20: seeking a key gives an iterator which visits exactly the keys not before it (in the
direction of the iterator); `found` tells whether the key is there. -/
theorem c20_seek {lt : K → K → Bool} (W : StrictWeak lt) (x : K) (d : Bool) {t : Tree K}
    (hs : Sorted lt t.toList) (hq : t.height ≤ 64) {n : Nat} (hn : t.toList.length ≤ n) :
    ∃ p found, seek lt x d t = .ok (p, found) ∧ (found = true ↔ ∃ y ∈ t.toList, Same lt x y) ∧
      walk t d n p = .ok (if d then t.toList.reverse.filter (fun y => !lt x y)
        else t.toList.filter (fun y => !lt y x)) := by
  cases ht : t.isNil
  · obtain ⟨A, c, B, e1, a1, a2, f1, f2, b1, b2⟩ := search_at W x (e := false) hs ht
    have hlen : ¬ (search lt x false t).1.length > maxPathLen := by
      have := a1.length; unfold maxPathLen; omega
    have hnd := sorted_nodup W hs
    have hlt : ∀ {a b}, lt a b = true → lt b a = false := lt_asymm W
    have hmem : (∃ y ∈ t.toList, Same lt x y) → Same lt x c := by
      rintro ⟨y, hy, hsm⟩
      rw [e1] at hy
      simp only [List.mem_append, List.mem_cons] at hy
      rcases hy with hy | hy | hy
      · exact absurd (b1 y hy) (by rw [hsm.2]; simp)
      · subst hy; exact hsm
      · exact absurd (b2 y hy) (by rw [hsm.1]; simp)
    have len : t.toList.length = A.length + (B.length + 1) := by rw [e1]; simp
    -- the keys from `c` on, the keys after it
    have from_c : ∀ d p, At d t p (c :: (if d then A.reverse else B)) →
        (if d then lt x c = false else lt c x = false) →
        walk t d n p = .ok (if d then t.toList.reverse.filter (fun y => !lt x y)
          else t.toList.filter (fun y => !lt y x)) := by
      intro d p hat hc
      cases d
      · rw [walk_at hnd hq hat (by simp; omega)]
        simp only [Bool.false_eq_true, if_false] at hc ⊢
        rw [e1, filter_split (lt := lt)]
        · intro y hy; simp [b1 y hy]
        · intro y hy
          rcases List.mem_cons.1 hy with rfl | hy
          · simp [hc]
          · simp [hlt (b2 y hy)]
      · rw [walk_at hnd hq hat (by simp; omega)]
        simp only [if_true] at hc ⊢
        rw [e1, List.reverse_append, List.reverse_cons, List.append_assoc, filter_split (lt := lt)]
        · rfl
        · intro y hy; simp [b2 y (by simpa using hy)]
        · intro y hy
          simp only [List.singleton_append, List.mem_cons, List.mem_reverse] at hy
          rcases hy with rfl | hy
          · simp [hc]
          · simp [hlt (b1 y hy)]
    have after_c : ∀ d p, At d t p (c :: (if d then A.reverse else B)) →
        (if d then lt x c = true else lt c x = true) →
        ∃ p', goNext t d p = .ok p' ∧
        walk t d n p' = .ok (if d then t.toList.reverse.filter (fun y => !lt x y)
          else t.toList.filter (fun y => !lt y x)) := by
      intro d p hat hc
      obtain ⟨c', rest, p', ec, hg, hcase⟩ := goNext_step hat hnd hq
      cases ec
      refine ⟨p', hg, ?_⟩
      have hw : walk t d n p' = .ok (if d then A.reverse else B) := by
        rcases hcase with ⟨h1, rfl⟩ | hcase
        · rw [h1]; cases n <;> rfl
        · exact walk_at hnd hq hcase (by cases d <;> simp <;> omega)
      rw [hw]
      cases d
      · simp only [Bool.false_eq_true, if_false] at hc ⊢
        rw [e1, ← List.singleton_append, ← List.append_assoc, filter_split (lt := lt)]
        · intro y hy
          rcases List.mem_append.1 hy with hy | hy
          · simp [b1 y hy]
          · simp only [List.mem_singleton] at hy; subst hy; simp [hc]
        · intro y hy; simp [hlt (b2 y hy)]
      · simp only [if_true] at hc ⊢
        rw [e1, List.reverse_append, List.reverse_cons, filter_split (lt := lt)]
        · intro y hy
          rcases List.mem_append.1 hy with hy | hy
          · simp [b2 y (by simpa using hy)]
          · simp only [List.mem_singleton] at hy; subst hy; simp [hc]
        · intro y hy; simp [hlt (b1 y (by simpa using hy))]
    have hat : At d t (search lt x false t).1 (c :: (if d then A.reverse else B)) := by
      cases d
      · exact a1
      · exact a2
    unfold seek
    simp only
    rw [if_neg hlen]
    cases hf : (search lt x false t).2.1
    · have f2 := f2 hf
      simp only [Bool.false_eq_true, if_false]
      have hnf : ¬ ∃ y ∈ t.toList, Same lt x y := by
        intro h
        have := hmem h
        split at f2
        · rw [this.2] at f2; cases f2
        · rw [this.1] at f2; cases f2
      by_cases hd : (search lt x false t).2.2 = d
      · rw [if_pos hd]
        refine ⟨_, _, rfl, by simpa using hnf, from_c d _ hat ?_⟩
        rw [hd] at f2
        cases d
        · exact hlt f2
        · exact hlt f2
      · rw [if_neg hd]
        have : (if d then lt x c = true else lt c x = true) := by
          cases d
          · simp only [Bool.not_eq_false] at hd
            rw [hd] at f2; exact f2
          · simp only [Bool.not_eq_true] at hd
            rw [hd] at f2; exact f2
        obtain ⟨p', hg, hw⟩ := after_c d _ hat this
        rw [hg]
        exact ⟨p', false, rfl, by simpa using hnf, hw⟩
    · have f1 := f1 hf
      simp only [if_true]
      refine ⟨_, _, rfl, ?_, from_c d _ hat ?_⟩
      · simp only [true_iff]
        exact ⟨c, by rw [e1]; simp, f1⟩
      · cases d
        · exact f1.2
        · exact f1.1
  · cases t with
    | nil =>
      refine ⟨[], false, ?_, by simp [toList], ?_⟩
      · cases d <;> rfl
      · cases d <;> cases n <;> simp [walk, toList]
    | node _ _ _ _ => cases ht

/-! ## Removal through an iterator -/

/-- Result of the removal by key without the removed node. -/
def dropNode (r : Except Err (Tree K × Bool × Option K)) : Except Err (Tree K × Bool) :=
  r.map (fun r => (r.1, r.2.1))

theorem At.mem {d : Bool} {t : Tree K} {p rem : List K} {c : K} (h : At d t p (c :: rem)) :
    c ∈ t.toList := by
  obtain ⟨bf, h⟩ := h.suffix
  rw [← mem_keys d, h]; simp

theorem sorted_link {lt : K → K → Bool} {l r : Tree K} {b : Int} {k : K} (d : Bool)
    (hs : Sorted lt (node l b k r).toList) : Sorted lt ((node l b k r).link d).toList := by
  simp only [toList] at hs
  unfold Sorted at hs
  rw [List.pairwise_append, List.pairwise_cons] at hs
  cases d
  · exact hs.1
  · exact hs.2.1.2

theorem removePath_down {lt : K → K → Bool} (W : StrictWeak lt) {l r : Tree K} {b : Int} {k c : K}
    {p : List K} (d : Bool) (hs : Sorted lt (node l b k r).toList)
    (hc : c ∈ ((node l b k r).link d).toList)
    (ih : ∃ rt ps, ((node l b k r).link d).root? = some rt ∧ p.reverse = rt :: ps ∧
      removePath ((node l b k r).link d) ps = dropNode (remove lt c ((node l b k r).link d))) :
    ∃ rt ps, (node l b k r).root? = some rt ∧ (p ++ [k]).reverse = rt :: ps ∧
      removePath (node l b k r) ps = dropNode (remove lt c (node l b k r)) := by
  obtain ⟨rt, ps, h1, h2, h3⟩ := ih
  have hnd := sorted_nodup W hs
  refine ⟨k, rt :: ps, rfl, by simp [h2], ?_⟩
  have hrt : rt ≠ k := by
    have hm : rt ∈ ((node l b k r).link d).toList := by
      cases h : (node l b k r).link d with
      | nil => rw [h] at h1; cases h1
      | node _ _ _ _ => rw [h] at h1; cases h1; simp [toList]
    rintro rfl
    simp only [toList, List.nodup_append, List.nodup_cons] at hnd
    cases d
    · exact hnd.2.2 rt hm rt (by simp) rfl
    · exact hnd.2.1.1 hm
  simp only [toList] at hs
  unfold Sorted at hs
  rw [List.pairwise_append, List.pairwise_cons] at hs
  obtain ⟨s1, ⟨s2, s3⟩, s4⟩ := hs
  have hk : ¬ (node l b k r).root? = some rt := by
    intro h; cases h; exact hrt rfl
  have hdir : (!decide (((node l b k r).link false).root? = some rt)) = d := by
    cases d
    · simp [h1]
    · have := root_ne (d := false) hnd (show ((node l b k r).link (!false)).root? = some rt from h1)
      simp [this]
  rw [removePath]
  simp only [hk, if_false, hdir, isNil, Bool.false_eq_true]
  rw [h3]
  cases d
  · have hlt : lt c k = true := s4 c hc k (by simp)
    simp only [remove, hlt, if_true]
    simp only [link, Bool.false_eq_true, if_false]
    cases remove lt c l with
    | error e => rfl
    | ok q =>
      obtain ⟨t', done, rm⟩ := q
      simp only [dropNode, Except.map]
      cases balanceAfterRemove ((node l b k r).setLink false t') done false <;> rfl
  · have hlt : lt k c = true := s2 c hc
    simp only [remove, hlt, lt_asymm W hlt, if_true, Bool.false_eq_true, if_false]
    simp only [link, if_true]
    cases remove lt c r with
    | error e => rfl
    | ok q =>
      obtain ⟨t', done, rm⟩ := q
      simp only [dropNode, Except.map]
      cases balanceAfterRemove ((node l b k r).setLink true t') done true <;> rfl

theorem removePath_at {lt : K → K → Bool} (W : StrictWeak lt) {d : Bool} {t : Tree K}
    {p rem : List K} {c : K} (h : At d t p (c :: rem)) (hs : Sorted lt t.toList) :
    ∃ rt ps, t.root? = some rt ∧ p.reverse = rt :: ps ∧
      removePath t ps = dropNode (remove lt c t) := by
  generalize hm : c :: rem = m at h
  induction h generalizing c rem with
  | @here l b k r =>
    cases hm
    refine ⟨k, [], rfl, rfl, ?_⟩
    simp only [removePath, isNil, Bool.false_eq_true, if_false, remove, W.irrefl]
    cases removeRootNode (node l b k r) <;> rfl
  | @near l b k r p rem' h ih =>
    obtain ⟨c', p', rest, e1, e2⟩ := h.head
    subst e2
    have hc : c' = c := by
      have := congrArg List.head? hm
      simpa using this.symm
    subst hc
    exact removePath_down W d hs h.mem (ih (sorted_link d hs) rfl)
  | @far l b k r p rem' h ih =>
    subst hm
    exact removePath_down W (!d) hs h.mem (ih (sorted_link (!d) hs) rfl)

end Tree

theorem split_unique {X Y X' Y' : List K} {c : K} (hn : (X ++ c :: Y).Nodup)
    (h : X ++ c :: Y = X' ++ c :: Y') : Y = Y' := by
  induction X generalizing X' with
  | nil =>
    cases X' with
    | nil => simpa using h
    | cons a X' =>
      simp only [List.nil_append, List.cons_append, List.cons.injEq] at h
      obtain ⟨rfl, h⟩ := h
      subst h
      simp at hn
  | cons a X ih =>
    cases X' with
    | nil =>
      simp only [List.nil_append, List.cons_append, List.cons.injEq] at h
      obtain ⟨rfl, h⟩ := h
      simp at hn
    | cons b X' =>
      simp only [List.cons_append, List.cons.injEq] at h
      simp only [List.cons_append, List.nodup_cons] at hn
      exact ih hn.2 h.2

/-- C21, C20: removal of the current node of an iterator of `AVLTree`: the tree is the set without
that key, the size is right, the iterator goes on with the next key. -/
theorem c21_removeIter {lt : K → K → Bool} (W : StrictWeak lt) {s : St K} {l : List K} {d : Bool}
    {p rem : List K} {c : K} (R : Rel lt s l) (hq : s.tree.height ≤ 64)
    (hp : Tree.At d s.tree p (c :: rem)) :
    ∃ s' p', s.removeIter lt d p = .ok (s', p') ∧ Rel lt s' (l.filter (fun y => lt c y || lt y c)) ∧
      ∀ n, s'.tree.toList.length ≤ n → s'.tree.walk d n p' = .ok rem := by
  obtain ⟨rt, ps, h1, h2, h3⟩ := Tree.removePath_at W hp R.sorted
  obtain ⟨t', done, rm, e, g1, g2, g3⟩ := Tree.remove_ok lt c R.bal
  obtain ⟨i1, i2⟩ := Tree.remove_toList W c R.sorted e
  have hcm := hp.mem
  have hsc : Same lt c c := ⟨W.irrefl c, W.irrefl c⟩
  cases rm with
  | none => exact absurd hsc ((i1 rfl).2 c hcm)
  | some k =>
    obtain ⟨hk, l1, l2, j1, j2, j3, j4⟩ := i2 k rfl
    have hkc : c = k := sorted_unique R.sorted hcm (by rw [j1]; simp) hk.1 hk.2
    subst hkc
    obtain ⟨s1, out, l', e1, e2, e3⟩ := c18_step W R (.erase c)
    have ht' : s1.tree = t' ∧ s1.count = s.count - 1 := by
      simp [St.apply, St.erase, e, Except.map] at e1
      rw [← e1.1]; exact ⟨rfl, rfl⟩
    have hl' : l' = l.filter (fun y => lt c y || lt y c) := by
      cases out with
      | flag b => exact e2.2
      | _ => exact e2.elim
    have hh : t'.height ≤ 64 := by
      cases done
      · have := g3 rfl; omega
      · have := g2 rfl; omega
    have hs' : Sorted lt t'.toList := by rw [← ht'.1]; exact e3.sorted
    obtain ⟨c', p0, rest, hp0, hrest⟩ := hp.head
    cases hrest
    subst hp0
    obtain ⟨p', found, q1, -, q3⟩ := Tree.c20_seek W c d hs' hh (n := t'.toList.length)
      (Nat.le_refl _)
    have hrem : (if d then t'.toList.reverse.filter (fun y => !lt c y)
        else t'.toList.filter (fun y => !lt y c)) = rem := by
      obtain ⟨bf, hbf⟩ := hp.suffix
      have hnd := Tree.sorted_nodup W R.sorted
      have f1 : ∀ y ∈ l1, (!lt y c) = false := fun y hy => by simp [j3 y hy]
      have f2 : ∀ y ∈ l2, (!lt y c) = true := fun y hy => by simp [Tree.lt_asymm W (j4 y hy)]
      have f3 : ∀ y ∈ l2, (!lt c y) = false := fun y hy => by simp [j4 y hy]
      have f4 : ∀ y ∈ l1, (!lt c y) = true := fun y hy => by simp [Tree.lt_asymm W (j3 y hy)]
      cases d
      · simp only [Tree.keys, Bool.false_eq_true, if_false] at hbf ⊢
        rw [j1] at hbf hnd
        rw [j2, List.filter_append, List.filter_eq_nil_iff.2 (by simpa using f1),
          List.filter_eq_self.2 f2, List.nil_append]
        exact split_unique hnd hbf
      · simp only [Tree.keys, if_true] at hbf ⊢
        rw [j1] at hbf hnd
        have hnd' : (l1 ++ c :: l2).reverse.Nodup := List.pairwise_reverse.2 (hnd.imp Ne.symm)
        simp only [List.reverse_append, List.reverse_cons, List.append_assoc, List.cons_append,
          List.nil_append] at hbf hnd'
        rw [j2, List.reverse_append, List.filter_append,
          List.filter_eq_nil_iff.2 (by simpa using f3),
          List.filter_eq_self.2 (by simpa using f4), List.nil_append]
        exact split_unique hnd' hbf
    refine ⟨⟨t', s.count - 1⟩, p', ?_, ?_, ?_⟩
    · simp only [St.removeIter]
      rw [h2, Tree.removePath]
      simp only [h1, if_true]
      rw [h3, e]
      simp only [Tree.dropNode, Except.map]
      rw [q1]
    · rw [← hl', ← ht'.1, ← ht'.2]; exact e3
    · intro n hn
      obtain ⟨p2, found2, r1, -, r3⟩ := Tree.c20_seek W c d hs' hh hn
      rw [q1] at r1
      cases r1
      rw [hrem] at r3
      exact r3

/-! ## The iterator returned by `insert` -/

namespace Tree

theorem map_up {done : Bool} {P Q : Prop} [Decidable P] [Decidable Q]
    {X : Except Err (Tree K)} {a b c : Option (Tree K × Bool)} {p : List K} :
    (if done then (.ok (a, p) : Except Err (Option (Tree K × Bool) × List K))
      else if P then .ok (b, p)
      else if Q then X.map (fun t => (some (t, true), p)) else .ok (c, p)).map (·.1) =
    if done then .ok a else if P then .ok b
      else if Q then X.map (fun t => some (t, true)) else .ok c := by
  cases done
  · by_cases hP : P
    · simp only [hP, if_true]; rfl
    · by_cases hQ : Q
      · simp only [hP, hQ, if_true, if_false]; cases X <;> rfl
      · simp only [hP, hQ, if_false]; rfl
  · rfl

theorem insertP_tree (lt : K → K → Bool) (x : K) (t : Tree K) :
    (insertP lt x t).map (·.1) = insert lt x t := by
  induction t with
  | nil => rfl
  | node l b k r ihl ihr =>
    simp only [insertP, insert]
    split
    · rw [← ihl]
      cases insertP lt x l with
      | error e => rfl
      | ok q =>
        obtain ⟨_ | ⟨nd, done⟩, p⟩ := q
        · rfl
        · exact map_up
    · split
      · rw [← ihr]
        cases insertP lt x r with
        | error e => rfl
        | ok q =>
          obtain ⟨_ | ⟨nd, done⟩, p⟩ := q
          · rfl
          · exact map_up
      · rfl

/-- If the key is in the tree, the path stored is the path of the search. -/
theorem insertP_none {lt : K → K → Bool} {x : K} {t : Tree K} {p : List K} {e : Bool}
    (h : insertP lt x t = .ok (none, p)) :
    p ++ t.root?.toList = (search lt x e t).1 ∧ (search lt x e t).2.1 = true := by
  induction t generalizing p e with
  | nil => simp [insertP] at h
  | node l b k r ihl ihr =>
    simp only [insertP] at h
    simp only [search]
    split at h
    · rename_i hx
      simp only [hx, if_true]
      cases hq : insertP lt x l with
      | error e => simp [hq] at h
      | ok q =>
        obtain ⟨_ | ⟨nd, done⟩, p'⟩ := q
        · simp only [hq, link, Bool.false_eq_true, if_false] at h
          cases h
          obtain ⟨i1, i2⟩ := ihl (e := false) hq
          exact ⟨by rw [i1]; rfl, i2⟩
        · simp only [hq] at h
          split at h
          · cases h
          · split at h
            · cases h
            · split at h
              · obtain ⟨y, -, hy⟩ := map_ok h
                cases hy
              · cases h
    · rename_i hx
      split at h
      · rename_i hx2
        simp only [hx, hx2, if_true, Bool.false_eq_true, if_false]
        cases hq : insertP lt x r with
        | error e => simp [hq] at h
        | ok q =>
          obtain ⟨_ | ⟨nd, done⟩, p'⟩ := q
          · simp only [hq, link, if_true] at h
            cases h
            obtain ⟨i1, i2⟩ := ihr (e := true) hq
            exact ⟨by rw [i1]; rfl, i2⟩
          · simp only [hq] at h
            split at h
            · cases h
            · split at h
              · cases h
              · split at h
                · obtain ⟨y, -, hy⟩ := map_ok h
                  cases hy
                · cases h
      · rename_i hx2
        cases h
        simp [hx, hx2, root?]

/-- The last node of the path is the new one. -/
theorem insertP_some {lt : K → K → Bool} {x : K} {t t' : Tree K} {p : List K} {done : Bool}
    (h : insertP lt x t = .ok (some (t', done), p)) : (p ++ t'.root?.toList).head? = some x := by
  have key : ∀ (q : List K) (l : List K), q.head? = some x → (q ++ l).head? = some x := by
    intro q l hq
    cases q with
    | nil => cases hq
    | cons => exact hq
  induction t generalizing t' p done with
  | nil => simp only [insertP] at h; cases h; rfl
  | node l b k r ihl ihr =>
    simp only [insertP] at h
    split at h
    · cases hq : insertP lt x l with
      | error e => simp [hq] at h
      | ok q =>
        obtain ⟨_ | ⟨nd, dn⟩, p'⟩ := q
        · simp [hq] at h
        · have := ihl hq
          simp only [hq] at h
          split at h
          · cases h; exact key _ _ this
          · split at h
            · cases h; exact key _ _ this
            · split at h
              · obtain ⟨y, -, hy⟩ := map_ok h
                cases hy; exact key _ _ this
              · cases h; exact key _ _ this
    · split at h
      · cases hq : insertP lt x r with
        | error e => simp [hq] at h
        | ok q =>
          obtain ⟨_ | ⟨nd, dn⟩, p'⟩ := q
          · simp [hq] at h
          · have := ihr hq
            simp only [hq] at h
            split at h
            · cases h; exact key _ _ this
            · split at h
              · cases h; exact key _ _ this
              · split at h
                · obtain ⟨y, -, hy⟩ := map_ok h
                  cases hy; exact key _ _ this
                · cases h; exact key _ _ this
      · cases h

end Tree

/-- C18: the iterator returned by `insert` is at the node of the tree which has the key: at the
existing one if there is one (then the tree is unchanged and the iterator goes through the rest of
the keys), at the new one otherwise. -/
theorem c18_iterator {lt : K → K → Bool} (W : StrictWeak lt) {t : Tree K} (hb : t.Balanced)
    (hs : Sorted lt t.toList) (hq : t.height ≤ 64) (x : K) :
    ∃ res p c, t.insertPath lt x = .ok (res, p) ∧ p.head? = some c ∧
      match res with
      | none => c ∈ t.toList ∧ Same lt x c ∧
        ∀ n, t.toList.length ≤ n → t.walk false n p = .ok (t.toList.filter (fun y => !lt y x))
      | some t' => c = x ∧ (∀ y ∈ t.toList, ¬ Same lt x y) ∧
        ∃ l1 l2, t.toList = l1 ++ l2 ∧ t'.toList = l1 ++ x :: l2 := by
  obtain ⟨res, hres, -⟩ := Tree.insert_ok lt x hb
  have hT := Tree.insertP_tree lt x t
  have hI := Tree.insert_toList W x hs hres
  rw [hres] at hT
  obtain ⟨⟨r0, p⟩, hP, rfl⟩ := Tree.map_ok hT
  cases r0 with
  | none =>
    obtain ⟨e1, e2⟩ := Tree.insertP_none (e := false) hP
    have hn : t.isNil = false := by
      cases t with
      | nil => simp [Tree.insertP] at hP
      | node => rfl
    obtain ⟨A, c, B, g1, a1, -, g3, -, g5, g6⟩ := Tree.search_at W x (e := false) hs hn
    obtain ⟨c', p', rest, h1, h2⟩ := a1.head
    cases h2
    refine ⟨none, p ++ t.root?.toList, c, by simp only [Tree.insertPath, hP], ?_, ?_, g3 e2, ?_⟩
    · rw [e1, h1]; rfl
    · rw [g1]; simp
    · intro n hn'
      rw [e1]
      have hf : t.toList.filter (fun y => !lt y x) = c :: B := by
        rw [g1, List.filter_append, List.filter_eq_nil_iff.2 (by intro y hy; simp [g5 y hy]),
          List.filter_eq_self.2, List.nil_append]
        intro y hy
        rcases List.mem_cons.1 hy with rfl | hy
        · simp [(g3 e2).2]
        · simp [Tree.lt_asymm W (g6 y hy)]
      rw [hf]
      refine Tree.walk_at (Tree.sorted_nodup W hs) hq a1 ?_
      have := congrArg List.length g1
      simp at this ⊢; omega
  | some q =>
    obtain ⟨t', done⟩ := q
    have := Tree.insertP_some hP
    refine ⟨some t', p ++ t'.root?.toList, x, by simp only [Tree.insertPath, hP], this, rfl, ?_⟩
    obtain ⟨l1, l2, k1, k2, k3, k4⟩ := hI.2 t' done rfl
    refine ⟨?_, l1, l2, k1, k2⟩
    intro y hy hsm
    rw [k1] at hy
    rcases List.mem_append.1 hy with hy | hy
    · exact hsm.not_gt (k3 y hy)
    · exact hsm.not_lt (k4 y hy)

/-! ## Histories with removal through an iterator -/

/-- The states of an `AVLTree` after any operations, among them `remove(iter)` with any iterator at a
node of the tree. (The bound is 4.4e13 keys: then the path of an iterator fits.) -/
inductive Hist (lt : K → K → Bool) : St K → Prop
  | init : Hist lt {}
  | op {s s' o out} : Hist lt s → s.apply lt o = .ok (s', out) → Hist lt s'
  | clear {s} : Hist lt s → Hist lt s.clear
  | iter {s s' d p p' rem} : Hist lt s → s.tree.toList.length < 44945570212852 →
      Tree.At d s.tree p rem → s.removeIter lt d p = .ok (s', p') → Hist lt s'

theorem Hist.rel {lt : K → K → Bool} (W : StrictWeak lt) {s : St K} (h : Hist lt s) :
    ∃ l, Rel lt s l := by
  induction h with
  | init => exact ⟨[], ⟨List.Perm.refl _, List.Pairwise.nil, trivial, rfl⟩⟩
  | op _ e ih =>
    obtain ⟨l, R⟩ := ih
    obtain ⟨s1, out, l', e1, -, e3⟩ := c18_step W R _
    rw [e] at e1; cases e1
    exact ⟨l', e3⟩
  | clear _ _ => exact ⟨[], ⟨List.Perm.refl _, List.Pairwise.nil, trivial, rfl⟩⟩
  | iter _ hn hp e ih =>
    obtain ⟨l, R⟩ := ih
    obtain ⟨c, _, rest, -, rfl⟩ := hp.head
    obtain ⟨s1, p1, e1, e2, -⟩ := c21_removeIter W R (Tree.c19_path R.bal hn) hp
    rw [e] at e1; cases e1
    exact ⟨_, e2⟩

/-- C21 for `AVLTree`: the size is the number of keys after any history; C19: the tree is balanced;
C20: the iteration visits the keys in order. -/
theorem c21_history {lt : K → K → Bool} (W : StrictWeak lt) {s : St K} (h : Hist lt s) :
    s.size = s.tree.toList.length ∧ s.tree.Balanced ∧ Sorted lt s.tree.toList ∧
      (s.tree.toList.length < 44945570212852 →
        ∀ d, s.tree.walk d s.tree.toList.length (s.tree.begin d) =
          .ok (if d then s.tree.toList.reverse else s.tree.toList)) := by
  obtain ⟨l, R⟩ := h.rel W
  refine ⟨?_, R.bal, R.sorted, fun hn d => ?_⟩
  · unfold St.size; rw [R.count, R.perm.length_eq]
  · exact Tree.c20_iterate d (Tree.sorted_nodup W R.sorted) (Tree.c19_path R.bal hn) (Nat.le_refl _)

/-! ## Examples and counterexamples -/

def natLt (a b : Nat) : Bool := decide (a < b)

/-- The tree of 1..7. -/
def ex7 : St Nat :=
  ⟨.node (.node (.node .nil 0 1 .nil) 0 2 (.node .nil 0 3 .nil)) 0 4
    (.node (.node .nil 0 5 .nil) 0 6 (.node .nil 0 7 .nil)), 7⟩

example : (ex7.tree.walk false 10 (ex7.tree.begin false)).toOption = some [1, 2, 3, 4, 5, 6, 7] ∧
    (ex7.tree.walk true 10 (ex7.tree.begin true)).toOption = some [7, 6, 5, 4, 3, 2, 1] ∧
    ((ex7.tree.seek natLt 5 false).toOption.map (·.1)) = some [5, 6, 4] := by decide +kernel

/-- Removal of the root through an iterator; the iterator is then at 5. -/
example : (ex7.removeIter natLt false [4]).toOption =
    some (⟨.node (.node (.node .nil 0 1 .nil) (-1) 2 .nil) 0 3
      (.node (.node .nil 0 5 .nil) 0 6 (.node .nil 0 7 .nil)), 6⟩, [5, 6, 3]) := by decide +kernel

/-- C21 does not hold for `AvlTreeBasic`: after `remove(iter)` of the root of the tree 1, 2 (the
height of the tree changes, so `done` is false) there is one key and the size is 2; `clear` leaves
the size as well. -/
theorem c21_basic_violated :
    (∃ s s' : St Nat, s.count = s.tree.toList.length ∧ s.tree.Balanced ∧
      s.removeIterBasic [1] = .ok s' ∧ s'.count ≠ s'.tree.toList.length) ∧
    ∃ s : St Nat, s.count = s.tree.toList.length ∧
      s.clearBasic.count ≠ s.clearBasic.tree.toList.length := by
  refine ⟨⟨⟨.node .nil 1 1 (.node .nil 0 2 .nil), 2⟩, ⟨.node .nil 0 2 .nil, 2⟩, rfl, ?_, rfl, ?_⟩,
    ⟨.node .nil 0 1 .nil, 1⟩, rfl, ?_⟩
  · simp [Tree.Balanced, Tree.height]
  · decide
  · decide

/-- C21 for `AvlTreeBasic`, partial: `remove(iter)` removes the node, and the size is right exactly
if the height of the tree stays the same. -/
theorem c21_basic_partial {lt : K → K → Bool} (W : StrictWeak lt) {s : St K} {l : List K}
    {d : Bool} {p rem : List K} {c : K} (R : Rel lt s l) (hp : Tree.At d s.tree p (c :: rem)) :
    ∃ s', s.removeIterBasic p = .ok s' ∧
      (∃ l1 l2, s.tree.toList = l1 ++ c :: l2 ∧ s'.tree.toList = l1 ++ l2) ∧
      (s'.count = s'.tree.toList.length ↔ s'.tree.height = s.tree.height) := by
  obtain ⟨rt, ps, h1, h2, h3⟩ := Tree.removePath_at W hp R.sorted
  obtain ⟨t', done, rm, e, g1, g2, g3⟩ := Tree.remove_ok lt c R.bal
  obtain ⟨i1, i2⟩ := Tree.remove_toList W c R.sorted e
  have hcm := hp.mem
  have hcount := R.count
  rw [← R.perm.length_eq] at hcount
  cases rm with
  | none => exact absurd ⟨W.irrefl c, W.irrefl c⟩ ((i1 rfl).2 c hcm)
  | some k =>
    obtain ⟨hk, l1, l2, j1, j2, j3, j4⟩ := i2 k rfl
    have hkc : c = k := sorted_unique R.sorted hcm (by rw [j1]; simp) hk.1 hk.2
    subst hkc
    refine ⟨⟨t', if done then s.count - 1 else s.count⟩, ?_, ⟨l1, l2, j1, j2⟩, ?_⟩
    · obtain ⟨c', p0, rest, hp0, -⟩ := hp.head
      subst hp0
      simp only [St.removeIterBasic]
      rw [h2, Tree.removePath]
      simp only [h1, if_true]
      rw [h3, e]
      rfl
    · have e1 : s.tree.toList.length = t'.toList.length + 1 := by rw [j1, j2]; simp; omega
      cases done
      · have := g3 rfl
        simp only [Bool.false_eq_true, if_false]
        omega
      · have := g2 rfl
        simp only [if_true]
        omega

/-- The iterator returned by `insert` is not always a position in the tree. Into the tree of 3, 1
the key 2 is inserted: a double rotation; the iterator goes over 2, 3, 2, 3 (the tree is 1, 2, 3). -/
theorem c73_violated : ∃ (t t' : Tree Nat) (p : List Nat), t.Balanced ∧ Sorted natLt t.toList ∧
    t.insertPath natLt 2 = .ok (some t', p) ∧ t'.toList = [1, 2, 3] ∧
      t'.walk false 10 p ≠ .ok (t'.toList.filter (fun y => !natLt y 2)) := by
  refine ⟨.node (.node .nil 0 1 .nil) (-1) 3 .nil, .node (.node .nil 0 1 .nil) 0 2 (.node .nil 0 3 .nil),
    [2, 1, 2], ?_, ?_, rfl, rfl, ?_⟩
  · simp [Tree.Balanced, Tree.height]
  · unfold Sorted; decide
  · intro h
    exact absurd (congrArg Except.toOption h) (by decide +kernel)

/-- C74: `insert(node)` of an `AVLTree` reports an existing key in the flag passed. It is not so if
the flag is false before the call, and without a flag the behaviour is undefined. -/
theorem c74_violated : ∃ s : St Nat, 1 ∈ s.tree.toList ∧
    (s.insertNode natLt 1 (some false)).toOption = some (s, false) ∧
    (∀ x, s.insertNode natLt x none = .error .ub) := by
  refine ⟨⟨.node .nil 0 1 .nil, 1⟩, by decide, by decide, fun x => ?_⟩
  simp only [St.insertNode]
  obtain ⟨res, h, -⟩ := Tree.insert_ok natLt x (t := .node .nil 0 1 .nil) (by
    simp [Tree.Balanced, Tree.height])
  rw [h]

/-- C74, partial: with a flag which is true before the call the result is right. -/
theorem c74_partial {lt : K → K → Bool} (W : StrictWeak lt) {s : St K} {l : List K} (R : Rel lt s l)
    (x : K) : ∃ s' e, s.insertNode lt x (some true) = .ok (s', e) ∧
      (e = true ↔ ∃ y ∈ s.tree.toList, Same lt x y) ∧ (e = true → s' = s) ∧
      (e = false → ∃ l1 l2, s.tree.toList = l1 ++ l2 ∧ s'.tree.toList = l1 ++ x :: l2) := by
  obtain ⟨res, hres, -⟩ := Tree.insert_ok lt x R.bal
  have hI := Tree.insert_toList W x R.sorted hres
  cases res with
  | none =>
    exact ⟨s, true, by simp [St.insertNode, hres], by simpa using hI.1 rfl, fun _ => rfl,
      fun h => by cases h⟩
  | some q =>
    obtain ⟨t', done⟩ := q
    obtain ⟨l1, l2, k1, k2, k3, k4⟩ := hI.2 t' done rfl
    refine ⟨⟨t', s.count + 1⟩, false, by simp [St.insertNode, hres], ?_, (fun h => by cases h),
      fun _ => ⟨l1, l2, k1, k2⟩⟩
    refine ⟨(fun h => by cases h), ?_⟩
    rintro ⟨y, hy, hsm⟩
    rw [k1] at hy
    rcases List.mem_append.1 hy with hy | hy
    · exact absurd (k3 y hy) (by simp [hsm.2])
    · exact absurd (k4 y hy) (by simp [hsm.1])

end LS.Avl
