import Verif.SharedRes
import Verif.SyncPtProps
import Batteries.Data.List.Perm
/-
C49: groups of objects sharing a resource.
-/
namespace LS.SharedRes
open LS.FastLock (upd upd_same upd_ne Chain)

/-! ### Specification -/

/-- The living objects and which of them share. -/
structure Spec where
  live : List Nat := []
  R : Nat → Nat → Bool := fun a b => a == b

/-- `x` becomes a group of its own. -/
def Spec.iso (S : Spec) (x : Nat) : Nat → Nat → Bool := fun a b => a == b || (a != x && b != x && S.R a b)

/-- `x` goes to the group of `y`. -/
def Spec.to (S : Spec) (x y : Nat) : Nat → Nat → Bool := fun a b => S.R (if a = x then y else a) (if b = x then y else b)

/-- The groups of `x` and `y` become one. -/
def Spec.union (S : Spec) (x y : Nat) : Nat → Nat → Bool := fun a b => S.R a b || (S.R a x && S.R y b) || (S.R a y && S.R x b)

def Spec.step (S : Spec) : Op → Spec
  | .new x => { live := x :: S.live, R := S.iso x }
  | .copy x y => { live := x :: S.live, R := S.to x y }
  | .assign x y | .share x y => { S with R := S.to x y }
  | .merge x y => { S with R := S.union x y }
  | .unshare x => { S with R := S.iso x }
  | .destroy x => { live := S.live.erase x, R := S.R }

/-- Operations which may be called: on living objects, construction on free memory. -/
def Spec.ok (S : Spec) : Op → Bool
  | .new x => !S.live.contains x
  | .copy x y => !S.live.contains x && S.live.contains y
  | .assign x y | .share x y | .merge x y => S.live.contains x && S.live.contains y
  | .unshare x | .destroy x => S.live.contains x

/-- Assignment and `shareWith` of an object to itself. -/
def Op.self : Op → Bool
  | .assign x y | .share x y => x == y
  | _ => false

def Spec.run : Spec → List Op → Spec
  | S, [] => S
  | S, op :: ops => (S.step op).run ops

def Spec.oks : Spec → List Op → Bool
  | _, [] => true
  | S, op :: ops => S.ok op && (S.step op).oks ops

/-- Number of living objects sharing with `x` (with `x`). -/
def Spec.count (S : Spec) (x : Nat) : Nat := (S.live.filter (S.R x)).length

/-! ### Rings -/

/-- `L` is a ring of `m`. -/
def Ring (m : Mem) (L : List Nat) : Prop := ∃ x t, L = x :: t ∧ Chain m x (x :: t) x

theorem Ring.rotate {m : Mem} {L : List Nat} (h : Ring m L) (hn : L.Nodup) {y : Nat} (hy : y ∈ L) :
    ∃ t, Chain m y (y :: t) y ∧ (y :: t).Nodup ∧ ∀ z, z ∈ y :: t ↔ z ∈ L := by
  obtain ⟨x, t, rfl, hc⟩ := h
  obtain ⟨A, B, e⟩ := List.append_of_mem hy
  cases A with
  | nil =>
    simp only [List.nil_append, List.cons.injEq] at e
    obtain ⟨rfl, rfl⟩ := e
    exact ⟨_, hc, hn, fun _ => Iff.rfl⟩
  | cons a A =>
    simp only [List.cons_append, List.cons.injEq] at e
    obtain ⟨rfl, rfl⟩ := e
    rw [← List.cons_append] at hc
    obtain ⟨k, h1, h2⟩ := LS.SyncPt.Chain.append.1 hc
    have hk : k = y := h2.1
    subst hk
    refine ⟨B ++ x :: A, ?_, ?_, ?_⟩
    · rw [← List.cons_append]
      exact LS.SyncPt.Chain.append.2 ⟨x, h2, h1⟩
    · have : ((x :: A) ++ (k :: B)).Perm ((k :: B) ++ (x :: A)) := List.perm_append_comm
      exact this.nodup_iff.1 (by simpa using hn)
    · intro z; simp only [List.mem_cons, List.mem_append]; grind

theorem findPrev_ring {m : Mem} {x : Nat} : ∀ (t : List Nat) {c f : Nat}, Chain m c (c :: t) x → x ∉ t → t.length < f →
    ∃ l A, c :: t = A ++ [l] ∧ findPrev m x f c = some l
  | [], c, f, hc, _, hf => by
    obtain ⟨f, rfl⟩ : ∃ k, f = k + 1 := ⟨f - 1, by simp at hf; omega⟩
    have : m c = x := hc.2
    exact ⟨c, [], rfl, by simp [findPrev, this]⟩
  | a :: t, c, f, hc, hx, hf => by
    obtain ⟨f, rfl⟩ : ∃ k, f = k + 1 := ⟨f - 1, by simp at hf; omega⟩
    have e : m c = a := hc.2.1
    have hc' : Chain m a (a :: t) x := e ▸ hc.2
    obtain ⟨l, A, h1, h2⟩ := findPrev_ring t hc' (fun h => hx (.tail _ h)) (by simp at hf; omega)
    refine ⟨l, c :: A, by rw [h1]; rfl, ?_⟩
    have hax : a ≠ x := fun h => hx (h ▸ .head _)
    simp [findPrev, e, hax, h2]

theorem countLoop_ring {m : Mem} {x : Nat} : ∀ (t : List Nat) {c f n : Nat}, Chain m c (c :: t) x → x ∉ t → t.length < f →
    countLoop m x f c n = some (n + t.length + 1)
  | [], c, f, n, hc, _, hf => by
    obtain ⟨f, rfl⟩ : ∃ k, f = k + 1 := ⟨f - 1, by simp at hf; omega⟩
    have : m c = x := hc.2
    simp [countLoop, this]
  | a :: t, c, f, n, hc, hx, hf => by
    obtain ⟨f, rfl⟩ : ∃ k, f = k + 1 := ⟨f - 1, by simp at hf; omega⟩
    have e : m c = a := hc.2.1
    have hc' : Chain m a (a :: t) x := e ▸ hc.2
    have := countLoop_ring t (n := n + 1) hc' (fun h => hx (.tail _ h)) (by simp at hf; omega)
    have hax : a ≠ x := fun h => hx (h ▸ .head _)
    simp [countLoop, e, hax, this]; omega

/-- Removal of `x` from its ring. -/
theorem remove_ring {m : Mem} {x : Nat} {t : List Nat} (hc : Chain m x (x :: t) x) (hn : (x :: t).Nodup) {f : Nat} (hf : t.length < f) :
    ∃ m', removeItself f m x = some m' ∧ m' x = x ∧ (t ≠ [] → Ring m' t) ∧ ∀ z, z ∉ x :: t → m' z = m z := by
  have hx : x ∉ t := (List.nodup_cons.1 hn).1
  obtain ⟨l, A, e, h⟩ := findPrev_ring t hc hx hf
  refine ⟨_, by simp only [removeItself, h]; rfl, upd_same .., ?_, ?_⟩
  · intro ht
    cases t with
    | nil => exact absurd rfl ht
    | cons a t =>
      have ea : m x = a := hc.2.1
      cases A with
      | nil => simp at e
      | cons b A =>
        simp only [List.cons_append, List.cons.injEq] at e
        obtain ⟨rfl, e⟩ := e
        refine ⟨a, t, rfl, ?_⟩
        have hc2 : Chain m a (a :: t) x := ea ▸ hc.2
        rw [e] at hc2 ⊢
        have hn2 : (A ++ [l]).Nodup := e ▸ (List.nodup_cons.1 hn).2
        have hlA : l ∉ A := by
          intro hl
          have := (List.nodup_append.1 hn2).2.2 l hl l (by simp)
          exact this rfl
        have := LS.SyncPt.Chain.set (v := a) (B' := []) (e' := a) hc2 hlA (by simp) rfl
        refine Chain.congr (fun z hz => ?_) this
        have : z ≠ x := fun hh => hx (by rw [e]; exact hh ▸ hz)
        rw [upd_ne _ _ this, ea]
  · intro z hz
    have hzl : z ≠ l := fun hh => hz (by rw [e, hh]; simp)
    rw [upd_ne _ _ (fun hh : z = x => hz (by simp [hh])), upd_ne _ _ hzl]

/-- Insertion of `x` behind `y`. -/
theorem insert_ring {m : Mem} {x y : Nat} {t : List Nat} (hc : Chain m y (y :: t) y) (hn : (y :: t).Nodup) (hx : x ∉ y :: t) :
    Chain (upd (upd m x (m y)) y x) y (y :: x :: t) y := by
  have hxy : x ≠ y := fun h => hx (h ▸ .head _)
  have hyt : y ∉ t := (List.nodup_cons.1 hn).1
  refine ⟨rfl, (upd_same _ _ _), ?_⟩
  rw [upd_ne _ _ hxy, upd_same]
  refine Chain.congr (fun z hz => ?_) hc.2
  rw [upd_ne _ _ (fun h : z = y => hyt (h ▸ hz)), upd_ne _ _ (fun h : z = x => hx (h ▸ .tail _ hz))]

/-- Join of two rings. -/
theorem join_ring {m : Mem} {x y : Nat} {t u : List Nat} (hx : Chain m x (x :: t) x) (hy : Chain m y (y :: u) y) (hn : ((x :: t) ++ (y :: u)).Nodup)
    {f : Nat} (hf : t.length < f) : ∃ m', merge f m x y = some m' ∧ Chain m' y (y :: (x :: t) ++ u) y ∧ ∀ z, z ∉ x :: t → z ∉ y :: u → m' z = m z := by
  obtain ⟨n1, n2, n3⟩ := List.nodup_append.1 hn
  have hyx : y ∉ x :: t := fun h => n3 y h y (.head _) rfl
  have hxt : x ∉ t := (List.nodup_cons.1 n1).1
  have hx' : Chain (upd m y x) x (x :: t) x := hx.congr (fun z hz => upd_ne _ _ (fun h => hyx (h ▸ hz)))
  obtain ⟨l, A, e, h⟩ := findPrev_ring t hx' hxt hf
  refine ⟨_, by simp only [merge, h]; rfl, ?_, ?_⟩
  · have hly : l ≠ y := fun hh => hyx (by rw [e, hh]; simp)
    have hlA : l ∉ A := by
      intro hl
      have := (List.nodup_append.1 (e ▸ n1)).2.2 l hl l (by simp)
      exact this rfl
    show y = y ∧ Chain _ (upd (upd m y x) l (m y) y) (x :: t ++ u) y
    refine ⟨rfl, ?_⟩
    rw [upd_ne _ _ hly.symm, upd_same, e]
    rw [e] at hx'
    have hu : Chain (upd m y x) (m y) u y := hy.2.congr (fun z hz => upd_ne _ _ (fun h => (List.nodup_cons.1 n2).1 (h ▸ hz)))
    have hlu : l ∉ u := fun h => n3 l (by rw [e]; simp) l (.tail _ h) rfl
    have := LS.SyncPt.Chain.set (v := m y) (B' := u) (e' := y) hx' hlA hlu hu
    simpa using this
  · intro z h1 h2
    have hzl : z ≠ l := fun hh => h1 (by rw [e, hh]; simp)
    rw [upd_ne _ _ hzl, upd_ne _ _ (fun hh : z = y => h2 (by simp [hh]))]

/-- `merge` inside one ring changes nothing. -/
theorem merge_same {m : Mem} {x y : Nat} {t : List Nat} (hx : Chain m x (x :: t) x) (hn : (x :: t).Nodup) (hy : y ∈ x :: t)
    {f : Nat} (hf : t.length < f) : ∃ m', merge f m x y = some m' ∧ ∀ z, m' z = m z := by
  obtain ⟨A, B, e⟩ := List.append_of_mem hy
  have hxt : x ∉ t := (List.nodup_cons.1 hn).1
  -- after `other.next = this` the walk from `x` ends in `y`
  have key : ∀ (A : List Nat) (c : Nat) (t : List Nat), c :: t = A ++ y :: B → Chain m c (c :: t) x → x ∉ t → (c :: t).Nodup → t.length < f →
      findPrev (upd m y x) x f c = some y := by
    clear e hx hn hy hxt hf t A
    intro A
    induction A generalizing f with
    | nil =>
      intro c t e hc hx hn hf
      simp only [List.nil_append, List.cons.injEq] at e
      obtain ⟨rfl, rfl⟩ := e
      obtain ⟨f, rfl⟩ : ∃ k, f = k + 1 := ⟨f - 1, by omega⟩
      simp [findPrev, upd_same]
    | cons a A ih =>
      intro c t e hc hx hn hf
      simp only [List.cons_append, List.cons.injEq] at e
      obtain ⟨rfl, rfl⟩ := e
      obtain ⟨f, rfl⟩ : ∃ k, f = k + 1 := ⟨f - 1, by omega⟩
      have hcy : c ≠ y := fun h => (List.nodup_cons.1 hn).1 (h ▸ by simp)
      obtain ⟨d, t', et⟩ : ∃ d t', A ++ y :: B = d :: t' := by cases A <;> exact ⟨_, _, rfl⟩
      rw [et] at hc hx hn hf
      have ed : m c = d := hc.2.1
      have hc' : Chain m d (d :: t') x := ed ▸ hc.2
      have hdx : d ≠ x := fun h => hx (h ▸ .head _)
      simp only [findPrev, upd_ne _ _ hcy, ed]
      rw [if_pos hdx]
      exact ih d t' et.symm hc' (fun h => hx (.tail _ h)) (List.nodup_cons.1 hn).2 (by simp at hf; omega)
  have := key A x t e hx hxt hn hf
  refine ⟨_, by simp only [merge, this]; rfl, fun z => ?_⟩
  by_cases hz : z = y
  · subst hz; rw [upd_same]
  · rw [upd_ne _ _ hz, upd_ne _ _ hz]

/-! ### The rings are the groups -/

structure Rep (m : Mem) (S : Spec) : Prop where
  refl : ∀ a, S.R a a = true
  symm : ∀ a b, S.R a b = true → S.R b a = true
  trans : ∀ a b c, S.R a b = true → S.R b c = true → S.R a c = true
  nd : S.live.Nodup
  ring : ∀ x ∈ S.live, ∃ L, Ring m L ∧ L.Nodup ∧ ∀ z, z ∈ L ↔ z ∈ S.live ∧ S.R x z = true

theorem Rep.init (m : Mem) : Rep m {} := ⟨by simp, by simp, by simp, by simp, by simp⟩

theorem Rep.get {m : Mem} {S : Spec} (r : Rep m S) {x : Nat} (hx : x ∈ S.live) :
    ∃ t, Chain m x (x :: t) x ∧ (x :: t).Nodup ∧ (∀ z, z ∈ x :: t ↔ z ∈ S.live ∧ S.R x z = true) ∧ t.length < S.live.length := by
  obtain ⟨L, h1, h2, h3⟩ := r.ring x hx
  obtain ⟨t, h4, h5, h6⟩ := h1.rotate h2 ((h3 x).2 ⟨hx, r.refl x⟩)
  refine ⟨t, h4, h5, fun z => (h6 z).trans (h3 z), ?_⟩
  have := (List.subperm_of_subset h5 (fun z hz => ((h3 z).1 ((h6 z).1 hz)).1)).length_le
  simp only [List.length_cons] at this
  omega

theorem Ring.congr {m m' : Mem} {L : List Nat} (h : Ring m L) (e : ∀ z ∈ L, m' z = m z) : Ring m' L := by
  obtain ⟨x, t, rfl, hc⟩ := h
  exact ⟨x, t, rfl, hc.congr e⟩

theorem Rep.new {m : Mem} {S : Spec} (r : Rep m S) {x : Nat} (hx : x ∉ S.live) : Rep (ctor m x) { live := x :: S.live, R := S.iso x } := by
  obtain ⟨r1, r2, r3, r4, r5⟩ := r
  refine ⟨by simp [Spec.iso], by simp only [Spec.iso]; grind, by simp only [Spec.iso]; grind, List.nodup_cons.2 ⟨hx, r4⟩, ?_⟩
  intro y hy
  by_cases e : y = x
  · subst e
    refine ⟨[y], ⟨y, [], rfl, rfl, upd_same ..⟩, by simp, fun z => ?_⟩
    simp only [Spec.iso]; grind
  · obtain ⟨L, h1, h2, h3⟩ := r5 y (by simp_all)
    refine ⟨L, h1.congr (fun z hz => upd_ne _ _ (fun h => hx (h ▸ ((h3 z).1 hz).1))), h2, fun z => ?_⟩
    rw [h3]; simp only [Spec.iso]; grind

theorem Rep.remove {m : Mem} {S : Spec} (r : Rep m S) {x : Nat} (hx : x ∈ S.live) {f : Nat} (hf : S.live.length ≤ f) :
    ∃ m', removeItself f m x = some m' ∧ Rep m' { S with R := S.iso x } ∧ Rep m' { S with live := S.live.erase x } := by
  obtain ⟨t, hc, hn, hm, hl⟩ := r.get hx
  obtain ⟨m', e, hx', ht, ho⟩ := remove_ring hc hn (f := f) (by omega)
  obtain ⟨r1, r2, r3, r4, r5⟩ := r
  have key : ∀ y ∈ S.live, y ≠ x → ∃ L, Ring m' L ∧ L.Nodup ∧ ∀ z, z ∈ L ↔ z ∈ S.live ∧ z ≠ x ∧ S.R y z = true := by
    intro y hy hyx
    by_cases hr : S.R x y = true
    · have hyt : y ∈ t := by have := (hm y).2 ⟨hy, hr⟩; simp_all
      refine ⟨t, ht (List.ne_nil_of_mem hyt), (List.nodup_cons.1 hn).2, fun z => ?_⟩
      have h1 := hm z
      have h2 : x ∉ t := (List.nodup_cons.1 hn).1
      simp only [List.mem_cons] at h1
      grind
    · obtain ⟨L, h1, h2, h3⟩ := r5 y hy
      refine ⟨L, h1.congr (fun z hz => ho z (fun hh => ?_)), h2, fun z => ?_⟩
      · exact hr (r3 _ _ _ ((hm z).1 hh).2 (r2 _ _ ((h3 z).1 hz).2))
      · rw [h3]; grind
  refine ⟨m', e, ⟨by simp [Spec.iso], by simp only [Spec.iso]; grind, by simp only [Spec.iso]; grind, r4, ?_⟩, ⟨r1, r2, r3, r4.erase x, ?_⟩⟩
  · intro y hy
    by_cases hyx : y = x
    · subst hyx
      refine ⟨[y], ⟨y, [], rfl, rfl, hx'⟩, by simp, fun z => ?_⟩
      simp only [Spec.iso]; grind
    · obtain ⟨L, h1, h2, h3⟩ := key y hy hyx
      refine ⟨L, h1, h2, fun z => ?_⟩
      rw [h3]; simp only [Spec.iso]; grind
  · intro y hy
    have hyx := (r4.mem_erase_iff).1 hy
    obtain ⟨L, h1, h2, h3⟩ := key y hyx.2 hyx.1
    refine ⟨L, h1, h2, fun z => ?_⟩
    rw [h3, r4.mem_erase_iff]; grind

theorem Rep.insert {m : Mem} {S : Spec} (r : Rep m S) {x y : Nat} (hxy : x ≠ y) (hy : y ∈ S.live) (hx : x ∉ S.live ∨ S.R y x ≠ true)
    (l : List Nat) (hl : l.Nodup) (hl' : ∀ z, z ∈ l ↔ z = x ∨ z ∈ S.live) (hi : x ∈ S.live → ∀ z ∈ S.live, z ≠ x → S.R x z ≠ true) :
    Rep (upd (upd m x (m y)) y x) { live := l, R := S.to x y } := by
  obtain ⟨t, hc, hn, hm, _⟩ := r.get hy
  obtain ⟨r1, r2, r3, r4, r5⟩ := r
  have hxt : x ∉ y :: t := fun h => by have := (hm x).1 h; grind
  have hring := insert_ring hc hn hxt
  refine ⟨fun a => r1 _, fun a b h => r2 _ _ h, fun a b c h h' => r3 _ _ _ h h', hl, ?_⟩
  intro w hw
  have hw' := (hl' w).1 hw
  by_cases hr : S.R y (if w = x then y else w) = true
  · refine ⟨y :: x :: t, ⟨y, x :: t, rfl, hring⟩, ?_, fun z => ?_⟩
    · have := List.nodup_cons.1 hn
      simp only [List.nodup_cons, List.mem_cons] at hxt ⊢
      grind
    · have h1 := hm z
      simp only [hl', Spec.to]
      simp only [List.mem_cons] at h1 hxt ⊢
      by_cases hzx : z = x
      · subst hzx; simp only [if_true]; grind
      · simp only [hzx, if_false]; grind
  · have hwx : w ≠ x := by rintro rfl; simp [r1] at hr
    rw [if_neg hwx] at hr
    obtain ⟨L, h1, h2, h3⟩ := r5 w (by grind)
    have hwl : w ∈ S.live := by grind
    refine ⟨L, h1.congr (fun z hz => ?_), h2, fun z => ?_⟩
    · have hz' := (h3 z).1 hz
      rw [upd_ne _ _ (by rintro rfl; exact hr (r2 _ _ hz'.2)), upd_ne _ _ (by rintro rfl; exact hi hz'.1 w hwl hwx (r2 _ _ hz'.2))]
    · rw [h3]; simp only [hl', Spec.to, if_neg hwx]
      by_cases hzx : z = x
      · subst hzx; simp only [if_true]; grind
      · simp only [hzx, if_false]; grind

theorem Rep.assign {m : Mem} {S : Spec} (r : Rep m S) {x y : Nat} (hxy : x ≠ y) (hx : x ∈ S.live) (hy : y ∈ S.live) {f : Nat} (hf : S.live.length ≤ f) :
    ∃ m', assign f m x y = some m' ∧ Rep m' { S with R := S.to x y } := by
  obtain ⟨m1, e, r1, _⟩ := r.remove hx hf
  refine ⟨_, by simp only [SharedRes.assign, e]; rfl, ?_⟩
  have := r1.insert hxy hy (.inr (by simp [Spec.iso]; exact fun h => hxy h.symm)) S.live r.nd (by simp [hx])
    (by intro _ z _ hz; simp [Spec.iso]; exact fun h => hz h.symm)
  have e2 : Spec.to { S with R := S.iso x } x y = S.to x y := by
    funext a b
    have hr := r.refl
    simp only [Spec.to, Spec.iso]
    have h1 : (if a = x then y else a) ≠ x := by grind
    have h2 : (if b = x then y else b) ≠ x := by grind
    generalize (if a = x then y else a) = a' at *
    generalize (if b = x then y else b) = b' at *
    by_cases h : a' = b'
    · subst h; simp [hr]
    · have h3 : (a' == b') = false := by simpa using h
      have h4 : (a' != x) = true := by simpa using h1
      have h5 : (b' != x) = true := by simpa using h2
      simp only [h3, h4, h5, Bool.false_or, Bool.true_and]
  rw [e2] at this
  exact this

theorem Rep.merge {m : Mem} {S : Spec} (r : Rep m S) {x y : Nat} (hx : x ∈ S.live) (hy : y ∈ S.live) {f : Nat} (hf : S.live.length ≤ f) :
    ∃ m', merge f m x y = some m' ∧ Rep m' { S with R := S.union x y } := by
  obtain ⟨t, hc, hn, hm, hl⟩ := r.get hx
  obtain ⟨u, hc', hn', hm', _⟩ := r.get hy
  obtain ⟨r1, r2, r3, r4, r5⟩ := r
  by_cases hr : S.R x y = true
  · obtain ⟨m', e, h⟩ := merge_same hc hn ((hm y).2 ⟨hy, hr⟩) (f := f) (by omega)
    refine ⟨m', e, ?_⟩
    have : m' = m := funext h
    rw [this]
    have e2 : S.union x y = S.R := by funext a b; simp only [Spec.union]; grind
    rw [e2]
    exact ⟨r1, r2, r3, r4, r5⟩
  · have hnd : ((x :: t) ++ (y :: u)).Nodup := by
      refine List.nodup_append.2 ⟨hn, hn', fun a ha b hb hab => ?_⟩
      subst hab
      exact hr (r3 _ _ _ ((hm a).1 ha).2 (r2 _ _ ((hm' a).1 hb).2))
    obtain ⟨m', e, h, ho⟩ := join_ring hc hc' hnd (f := f) (by omega)
    refine ⟨m', e, by simp only [Spec.union]; grind, by simp only [Spec.union]; grind, by simp only [Spec.union]; grind, r4, fun w hw => ?_⟩
    by_cases hw' : S.R x w = true ∨ S.R y w = true
    · refine ⟨y :: (x :: t) ++ u, ⟨_, _, rfl, h⟩, ?_, fun z => ?_⟩
      · have : ((x :: t) ++ (y :: u)).Perm (y :: (x :: t) ++ u) := List.perm_middle
        exact this.nodup_iff.1 hnd
      · have h1 := hm z
        have h2 := hm' z
        simp only [List.mem_cons, List.mem_append, List.cons_append, Spec.union] at h1 h2 ⊢
        grind
    · obtain ⟨L, h1, h2, h3⟩ := r5 w hw
      refine ⟨L, h1.congr (fun z hz => ho z (fun hh => ?_) (fun hh => ?_)), h2, fun z => ?_⟩
      · exact hw' (.inl (r3 _ _ _ ((hm z).1 hh).2 (r2 _ _ ((h3 z).1 hz).2)))
      · exact hw' (.inr (r3 _ _ _ ((hm' z).1 hh).2 (r2 _ _ ((h3 z).1 hz).2)))
      · rw [h3]; simp only [Spec.union]; grind


theorem Rep.step {m : Mem} {S : Spec} (r : Rep m S) {op : Op} (hok : S.ok op = true) (hs : op.self = false) {f : Nat} (hf : S.live.length ≤ f) :
    ∃ m', SharedRes.step f m op = some m' ∧ Rep m' (S.step op) := by
  cases op with
  | new x => exact ⟨_, rfl, r.new (by simpa [Spec.ok] using hok)⟩
  | copy x y =>
    simp only [Spec.ok, Bool.and_eq_true, Bool.not_eq_true', List.contains_eq_mem, decide_eq_true_eq, decide_eq_false_iff_not] at hok
    exact ⟨_, rfl, r.insert (fun h : x = y => hok.1 (h ▸ hok.2)) hok.2 (.inl hok.1) _ (List.nodup_cons.2 ⟨hok.1, r.nd⟩) (by simp) (fun h => absurd h hok.1)⟩
  | assign x y =>
    simp only [Spec.ok, Bool.and_eq_true, List.contains_eq_mem, decide_eq_true_eq] at hok
    exact r.assign (by simpa [Op.self] using hs) hok.1 hok.2 hf
  | share x y =>
    simp only [Spec.ok, Bool.and_eq_true, List.contains_eq_mem, decide_eq_true_eq] at hok
    exact r.assign (by simpa [Op.self] using hs) hok.1 hok.2 hf
  | merge x y =>
    simp only [Spec.ok, Bool.and_eq_true, List.contains_eq_mem, decide_eq_true_eq] at hok
    exact r.merge hok.1 hok.2 hf
  | unshare x =>
    simp only [Spec.ok, List.contains_eq_mem, decide_eq_true_eq] at hok
    obtain ⟨m', h1, h2, _⟩ := r.remove hok hf
    exact ⟨m', h1, h2⟩
  | destroy x =>
    simp only [Spec.ok, List.contains_eq_mem, decide_eq_true_eq] at hok
    obtain ⟨m', h1, _, h2⟩ := r.remove hok hf
    exact ⟨m', h1, h2⟩

theorem Spec.step_length (S : Spec) (op : Op) : (S.step op).live.length ≤ S.live.length + 1 := by
  cases op <;> simp [Spec.step]
  have := List.length_erase_le (a := ‹Nat›) (l := S.live)
  omega

theorem Rep.run : ∀ (ops : List Op) {m : Mem} {S : Spec}, Rep m S → S.oks ops = true → (∀ op ∈ ops, op.self = false) →
    ∀ {f : Nat}, S.live.length + ops.length ≤ f → ∃ m', SharedRes.run f m ops = some m' ∧ Rep m' (S.run ops)
  | [], m, _, r, _, _, _, _ => ⟨m, rfl, r⟩
  | op :: ops, m, S, r, hok, hs, f, hf => by
    simp only [Spec.oks, Bool.and_eq_true] at hok
    obtain ⟨m1, h1, r1⟩ := r.step hok.1 (hs op (.head _)) (f := f) (by simp at hf; omega)
    have := Spec.step_length S op
    obtain ⟨m2, h2, r2⟩ := Rep.run ops r1 hok.2 (fun o ho => hs o (.tail _ ho)) (f := f) (by simp at hf; omega)
    exact ⟨m2, by simp only [SharedRes.run, h1, h2], r2⟩

theorem Rep.count {m : Mem} {S : Spec} (r : Rep m S) {x : Nat} (hx : x ∈ S.live) {f : Nat} (hf : S.live.length ≤ f) :
    SharedRes.count f m x = some (S.count x) ∧ (isShared m x = true ↔ ∃ y ∈ S.live, y ≠ x ∧ S.R x y = true) := by
  obtain ⟨t, hc, hn, hm, hl⟩ := r.get hx
  have hxt := (List.nodup_cons.1 hn).1
  constructor
  · simp only [SharedRes.count, countLoop_ring t (n := 0) hc hxt (f := f) (by omega), Spec.count]
    have hp : (x :: t).Perm (S.live.filter (S.R x)) := by
      refine (List.perm_ext_iff_of_nodup hn (r.nd.filter _)).2 fun z => ?_
      rw [hm z, List.mem_filter]
    rw [← hp.length_eq]; simp
  · simp only [isShared, bne_iff_ne]
    constructor
    · intro h
      cases t with
      | nil => exact absurd hc.2 h
      | cons a t =>
        have ha := (hm a).1 (by simp)
        exact ⟨a, ha.1, fun e => hxt (by simp [e]), ha.2⟩
    · rintro ⟨y, h1, h2, h3⟩ h
      cases t with
      | nil => have := (hm y).2 ⟨h1, h3⟩; simp at this; exact h2 this
      | cons a t => exact hxt (by rw [← h, hc.2.1]; simp)

/-- **C49**, partial: after every history without an assignment of an object to itself, the operations have ended, every living object knows whether it shares, and the
count is exact, where the groups are those of the specification (copy and assignment join one group, `merge` unites two, destruction leaves the others alone).
Missing: assignment of an object to itself, see `C49_self_violated`. -/
theorem C49_groups_partial (m : Mem) (ops : List Op) (hok : Spec.oks {} ops = true) (hs : ∀ op ∈ ops, op.self = false) (f : Nat) (hf : ops.length ≤ f) :
    ∃ m', run f m ops = some m' ∧ ∀ x ∈ (Spec.run {} ops).live, count f m' x = some ((Spec.run {} ops).count x) ∧
      (isShared m' x = true ↔ ∃ y ∈ (Spec.run {} ops).live, y ≠ x ∧ (Spec.run {} ops).R x y = true) := by
  obtain ⟨m', h1, r⟩ := Rep.run ops (Rep.init m) hok hs (f := f) (by simpa using hf)
  refine ⟨m', h1, fun x hx => r.count hx (f := f) ?_⟩
  have : ∀ (ops : List Op) (S : Spec), (S.run ops).live.length ≤ S.live.length + ops.length := by
    intro ops
    induction ops with
    | nil => intro S; exact Nat.le_refl _
    | cons op ops ih =>
      intro S
      have h1 := ih (S.step op)
      have h2 := Spec.step_length S op
      simp only [Spec.run, List.length_cons]
      omega
  have := this ops {}
  simp only [List.length_nil] at this
  omega

/-- The groups of the specification are an equivalence on every reachable state. -/
theorem C49_spec_equiv (ops : List Op) (hok : Spec.oks {} ops = true) (hs : ∀ op ∈ ops, op.self = false) :
    (∀ a, (Spec.run {} ops).R a a = true) ∧ (∀ a b, (Spec.run {} ops).R a b = true → (Spec.run {} ops).R b a = true) ∧
      ∀ a b c, (Spec.run {} ops).R a b = true → (Spec.run {} ops).R b c = true → (Spec.run {} ops).R a c = true :=
  have ⟨_, _, r⟩ := Rep.run ops (Rep.init id) hok hs (f := ops.length) (by simp)
  ⟨r.refl, r.symm, r.trans⟩

/-- Example: 1; 2 a copy of 1; 3; 4 a copy of 3; 2 assigned from 3; 1 merged with 4; 3 destroyed. -/
example : ∃ m', run 20 id [.new 1, .copy 2 1, .new 3, .copy 4 3, .assign 2 3, .destroy 3, .new 5, .merge 1 4] = some m' ∧
    count 20 m' 1 = some 3 ∧ isShared m' 5 = false ∧ isShared m' 2 = true ∧
    (Spec.run {} [.new 1, .copy 2 1, .new 3, .copy 4 3, .assign 2 3, .destroy 3, .new 5, .merge 1 4]).count 4 = 3 :=
  ⟨_, rfl, by decide, by decide, by decide, by decide⟩

/-- **C49**, negation: object 2 shares with 1 and is assigned to itself; it leaves the group although it still refers to the same resource, so both objects believe to
be the last one.  The same with `shareWith`. -/
theorem C49_self_violated (m : Mem) : ∃ m', run 10 m [.new 1, .copy 2 1, .assign 2 2] = some m' ∧ Spec.oks {} [.new 1, .copy 2 1, .assign 2 2] = true ∧
    isShared m' 1 = false ∧ isShared m' 2 = false ∧ (Spec.run {} [.new 1, .copy 2 1, .assign 2 2]).R 1 2 = true := by
  refine ⟨_, rfl, by decide, ?_, ?_, by decide⟩ <;> simp [isShared, upd, ctor, copy]

theorem C49_self_always {m : Mem} {S : Spec} (r : Rep m S) {x : Nat} (hx : x ∈ S.live) {f : Nat} (hf : S.live.length ≤ f) :
    ∃ m', step f m (.assign x x) = some m' ∧ isShared m' x = false := by
  obtain ⟨m', h1, h2, _⟩ := r.remove hx hf
  refine ⟨_, by simp only [SharedRes.step, SharedRes.assign, h1]; rfl, by simp [isShared, upd]⟩
end LS.SharedRes
