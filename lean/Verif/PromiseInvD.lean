import Verif.PromiseInvC
/-!
# `Future` and `Promise`: invariants of the order and of cancellation
-/

namespace LS.Promise
open LS.FastLock (upd upd_same upd_ne)

/-- Observers registered after the last cancellation. -/
def recent (l : List Ev) : List Nat :=
  l.foldl (fun a e => match e with | .reg x => a ++ [x] | .cancel _ => [] | _ => a) []

/-- The last promise was dropped and no cancellation followed. -/
def pending (l : List Ev) : Bool :=
  l.foldl (fun a e => match e with | .drop => true | .cancel _ => false | _ => a) false

theorem recent_snoc (l : List Ev) (e : Ev) :
    recent (l ++ [e]) = match e with | .reg x => recent l ++ [x] | .cancel _ => [] | _ => recent l := by
  cases e <;> simp [recent]

theorem pending_snoc (l : List Ev) (e : Ev) :
    pending (l ++ [e]) = match e with | .drop => true | .cancel _ => false | _ => pending l := by
  cases e <;> simp [pending]

theorem calls_snoc (l : List Ev) (e : Ev) :
    calls (l ++ [e]) = calls l ++ (match e with | .call x _ => [x] | _ => []) := by
  cases e <;> simp [calls]

structure InvD (s : St) : Prop where
  rcn : ∀ x ∈ s.obs, x ∈ recent s.log
  pen : pending s.log = true → ∃ t e, s.pc t = .cancel0 e
  ord : s.resolving = true ∨ s.value = none → (calls s.log ++ s.obs).Sublist (regs s.log)
  ordL : ∀ t x o, s.pc t = .call x o .loop → (calls s.log ++ x :: s.obs).Sublist (regs s.log)

theorem pen_upd {pc : Nat → PC} {t : Nat} (p : PC) (h : ∃ t e, pc t = .cancel0 e)
    (h' : ∀ e, pc t ≠ .cancel0 e) : ∃ u e, upd pc t p u = .cancel0 e := by
  obtain ⟨u, e, hu⟩ := h
  exact ⟨u, e, by rw [upd_ne]; exact hu; intro h; subst h; exact h' e hu⟩

theorem Sublist.snoc {l l' : List Nat} (x : Nat) (h : l.Sublist l') : (l ++ [x]).Sublist (l' ++ [x]) :=
  List.Sublist.append h (List.Sublist.refl _)

theorem Sublist.drop_cons {a b r : List Nat} {x : Nat} (h : (a ++ x :: b).Sublist r) : (a ++ b).Sublist r :=
  List.Sublist.trans (List.Sublist.append (List.Sublist.refl _) (List.sublist_cons_self _ _)) h

theorem Sublist.erase {a b r : List Nat} (x : Nat) (h : (a ++ b).Sublist r) : (a ++ b.erase x).Sublist r :=
  List.Sublist.trans (List.Sublist.append (List.Sublist.refl _) List.erase_sublist) h

theorem Sublist.erase' {a b r : List Nat} {y : Nat} (x : Nat) (h : (a ++ y :: b).Sublist r) :
    (a ++ y :: b.erase x).Sublist r :=
  List.Sublist.trans (List.Sublist.append (List.Sublist.refl _) (List.erase_sublist.cons_cons _)) h

theorem Sublist.nil' {a b r : List Nat} (h : (a ++ b).Sublist r) : a.Sublist r :=
  List.Sublist.trans (List.sublist_append_left _ _) h

theorem Sublist.one' {a b r : List Nat} {x : Nat} (h : (a ++ x :: b).Sublist r) : (a ++ [x]).Sublist r :=
  List.Sublist.trans (List.Sublist.append (List.Sublist.refl _) ((List.nil_sublist _).cons_cons _)) h

theorem Sublist.snoc2 {a b r : List Nat} {x : Nat} (y : Nat) (h : (a ++ x :: b).Sublist r) :
    (a ++ x :: (b ++ [y])).Sublist (r ++ [y]) := by
  have := Sublist.snoc y h
  simpa using this

theorem Sublist.wk {a r : List Nat} (y : Nat) (h : a.Sublist r) : a.Sublist (r ++ [y]) :=
  List.Sublist.trans h (List.sublist_append_left _ _)

theorem pen_upd' {pc : Nat → PC} {t : Nat} (e : Nat) : ∃ u e', upd pc t (.cancel0 e) u = .cancel0 e' :=
  ⟨t, e, upd_same _ _ _⟩

theorem upd_call {pc : Nat → PC} {t u x : Nat} {o : Out} {p : PC} (hp : ∀ y o', p ≠ .call y o' .loop)
    (h : upd pc t p u = .call x o .loop) : u ≠ t ∧ pc u = .call x o .loop := by
  by_cases e : u = t
  · subst e; rw [upd_same] at h; exact absurd h (hp _ _)
  · rw [upd_ne _ _ e] at h; exact ⟨e, h⟩

set_option maxHeartbeats 4000000 in
theorem InvD.step {s s' : St} {t : Nat} (a : InvA s) (b : InvB s) (h : InvD s) (tr : Tr s t s') : InvD s' := by
  have em : ∀ l : List Nat, ∀ x y, x ∈ l.erase y → x ∈ l := fun l x y h => List.mem_of_mem_erase h
  have loop := b.loop
  have direct := b.direct
  have lu := b.lu
  have call := b.call
  have fin := b.fin
  have rv := b.rv
  have il : ∀ u x o, s.pc u = .call x o .loop → s.resolving = true := fun u x o h => loop u (by rw [h]; rfl)
  have lu2 : ∀ u u' x o, s.pc u = .call x o .loop → inLoop (s.pc u') = true → u = u' :=
    fun u u' x o h h' => lu u u' (by rw [h]; rfl) h'
  clear a b
  obtain ⟨rcn, pen, ord, ordL⟩ := h
  cases tr
  case skip => exact ⟨rcn, pen, ord, ordL⟩
  case call x o k hp =>
    cases k <;> constructor <;> simp only [Cont.ev, calls_snoc, regs_snoc, recent_snoc, pending_snoc, List.append_nil]
    case loop.ordL =>
      intro u y o' hu
      obtain ⟨hne, hu'⟩ := upd_call (by intro _ _ h; cases h) hu
      exact (hne (lu2 u t y o' hu' (by rw [hp]; rfl))).elim
    case ret.ordL =>
      intro u y o' hu
      obtain ⟨hne, hu'⟩ := upd_call (by intro _ _ h; cases h) hu
      have h1 := il u y o' hu'
      have h2 := direct t _ _ _ hp (.inl rfl)
      rw [h1] at h2; cases h2
    case wait.ordL =>
      intro u y o' hu
      obtain ⟨hne, hu'⟩ := upd_call (by intro _ _ h; cases h) hu
      have h1 := il u y o' hu'
      have h2 := direct t _ _ _ hp (.inr rfl)
      rw [h1] at h2; cases h2
    all_goals
      first | assumption | exact fun _ => pen_upd' _ | (intro hr; refine pen_upd _ (pen hr) ?_; grind) | grind (splits := 20) [upd, inLoop, Sublist.snoc, Sublist.drop_cons, Sublist.erase, Sublist.erase', Sublist.nil', Sublist.one'] | skip
  case wake x k _ =>
    cases k <;> constructor <;> simp only [Cont.pc] <;>
      first | assumption | (intro hr; refine pen_upd _ (pen hr) ?_; grind) | grind (splits := 20) [upd, inLoop] | skip
  all_goals
    constructor <;> simp only [calls_snoc, regs_snoc, recent_snoc, pending_snoc, List.append_nil, ← List.append_assoc]
  case regD.ordL | waitD.ordL =>
    intro u y o' hu
    obtain ⟨hne, hu'⟩ := upd_call (by intro _ _ h; cases h) hu
    exact Sublist.wk _ (ordL u y o' hu')
  case regL.ordL | waitL.ordL =>
    intro u y o' hu
    obtain ⟨hne, hu'⟩ := upd_call (by intro _ _ h; cases h) hu
    exact Sublist.snoc2 _ (ordL u y o' hu')
  case cancel.ordL =>
    intro u y o' hu
    obtain ⟨hne, hu'⟩ := upd_call (by intro _ _ h; cases h) hu
    exact Sublist.one' (ordL u y o' hu')
  all_goals
    first | assumption | exact fun _ => pen_upd' _ | (intro hr; refine pen_upd _ (pen hr) ?_; grind) | grind (splits := 20) [upd, inLoop, Sublist.snoc, Sublist.drop_cons, Sublist.erase, Sublist.erase', Sublist.nil', Sublist.one'] | skip

end LS.Promise
