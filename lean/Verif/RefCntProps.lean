import Verif.RefCntStep
/-
C47: counted objects die exactly once, when the last pointer goes away.
-/
namespace LS.RefCnt
open LS.FastLock (upd upd_same upd_ne)

/-- C47, no misuse of memory: whatever the threads do by the rules, no step touches a pointer or a counter which is gone, and no object is destroyed twice.
Missing from the full property: the operations excluded by the rules, see the `_violated` theorems. -/
theorem C47_no_ub_partial {cf : Cfg} (hs : cf.strict = true) {s : St} (h : Reach cf s) : ¬ UB s := by
  have i := h.inv hs
  intro u
  cases u with
  | cpy t x y h hv => have := (i.rlive t y (i.pcpy t x y h).2.1).1; simp_all
  | cadd t x y h hv =>
    obtain ⟨h1, h2, h3, h4, h5, h6⟩ := i.pcadd t x y h
    have h7 := (i.rlive t y h2).2.2.2
    rcases hv with hv | ⟨hv, hw⟩
    · simp_all
    · exact hw (by rw [h4, ← h7]; exact (i.own y (by omega)).2.2.2)
  | new t x o h hv =>
    obtain ⟨h1, h2, h3, h4, h5⟩ := i.pnadd t x o h
    rcases hv with hv | ⟨hv, hw⟩
    · simp_all
    · exact hw (by rw [h5]; exact (i.newo t x o (.inr h)).2.1)
  | asg t x y h hv =>
    obtain ⟨h1, h2, h3, h4⟩ := i.pasg t x y h
    obtain ⟨g1, _, _, h7⟩ := i.rlive t y h2
    rcases hv with hv | ⟨hv, hw⟩
    · simp_all
    · exact hw (by rw [← h7]; exact (i.own y (by omega)).2.2.2)
  | aset t x y h hp hv =>
    obtain ⟨h1, h2, h3, h4⟩ := i.paset t x y h
    have := (i.rlive t y h2).1
    simp_all
  | mset t x y h hp hv =>
    obtain ⟨h1, h2, h3, h4, h5, h6⟩ := i.pmset t x y h
    simp_all
  | rel v h hv =>
    rcases hv with hv | ⟨hv, hw⟩
    · have := (i.busy v (by simp [h])).1; simp_all
    · have e := i.relOwn h hv
      exact hw (by rw [← e]; exact (i.own v (by omega)).2.2.2)
  | nul v h hv => have := (i.busy v (by simp [h])).1; simp_all
  | nulk v o h hv => have := (i.busy v (by simp [h])).1; simp_all
  | kill v o h hv => exact hv (i.zero v o (.inr h)).2.1

/-- C47, never while a pointer to it exists: the object of every pointer which is not just being changed or destroyed is alive. -/
theorem C47_alive_partial {cf : Cfg} (hs : cf.strict = true) {s : St} (h : Reach cf s) {v : Nat} (hv : s.vl v = true) (hd : s.dt v = false) (hw : s.wl v = none)
    (hp : s.ptr v ≠ 0) : s.st (s.ptr v) = .alive ∧ s.ptr v ∉ s.log := by
  have i := h.inv hs
  have e := i.lockOwn hv hw hd
  have a : s.st (s.ptr v) = .alive := by rw [← e]; exact (i.own v (by omega)).2.2.2
  exact ⟨a, fun hl => by have := (i.logm _).1 hl; rw [a] at this; simp at this⟩

/-- C47, exactly once: no object is destroyed twice, and a destroyed object does not come to life again. -/
theorem C47_once_partial {cf : Cfg} (hs : cf.strict = true) {s : St} (h : Reach cf s) : s.log.Nodup ∧ ∀ o ∈ s.log, s.st o = .dying ∨ s.st o = .freed :=
  ⟨(h.inv hs).logn, fun o ho => ((h.inv hs).logm o).1 ho⟩

/-- Number of existing pointers to `o`. -/
def refs (s : St) (o n : Nat) : Nat := ((List.range n).filter fun v => s.vl v && s.ptr v == o).length

theorem refs_eq (s : St) (o : Nat) (ho : o ≠ 0) (h : ∀ v, s.own v = if s.vl v = true then s.ptr v else 0) : ∀ n, cE s.own o n = refs s o n
  | 0 => rfl
  | n + 1 => by
    show cE s.own o n + _ = _
    rw [refs_eq s o ho h n, refs, refs, List.range_succ, List.filter_append, List.length_append, h n]
    congr 1
    cases e : s.vl n <;> by_cases c : s.ptr n = o <;> simp [e, c] <;> omega

/-- C47, when the last pointer goes away: when no operation is running, the counter of an object is the number of pointers to it, an object with a pointer is alive, and
an object without any pointer was destroyed (and its memory is returned) or never created. -/
theorem C47_last_partial {cf : Cfg} (hs : cf.strict = true) {s : St} (h : Reach cf s) (hq : ∀ t, s.pc t = .idle) (hv : ∀ v, s.vp v = .no) (hd : ∀ v, s.dt v = false)
    {o : Nat} (ho : o ≠ 0) :
    s.cnt o = refs s o cf.nv ∧ (refs s o cf.nv ≠ 0 → s.st o = .alive) ∧ (refs s o cf.nv = 0 → s.st o = .none ∨ s.st o = .freed) := by
  have i := h.inv hs
  have hw : ∀ v, s.wl v = none := fun v => by
    cases e : s.wl v with
    | none => rfl
    | some t => have := i.wlp v t e; rw [hq t] at this; cases this
  have hown : ∀ v, s.own v = if s.vl v = true then s.ptr v else 0 := fun v => by
    cases e : s.vl v with
    | true => rw [if_pos rfl]; exact i.lockOwn e (hw v) (hd v)
    | false =>
      rw [if_neg (by simp)]
      refine Classical.byContradiction fun hn => ?_
      have := (i.own v hn).2.1; simp [e] at this
  have hpend : cE s.pend o cf.nt = 0 := cE_zero _ _ _ fun t _ ht => by
    have := i.npend t (by omega); rw [hq t] at this; cases this
  have hc : s.cnt o = refs s o cf.nv := by rw [i.cnt o ho, refs_eq s o ho hown, hpend]; rfl
  refine ⟨hc, fun hr => ?_, fun hr => ?_⟩
  · refine Classical.byContradiction fun hn => hr ?_
    rw [← hc]; exact i.cz o hn
  · cases e : s.st o with
    | none => exact .inl rfl
    | freed => exact .inr rfl
    | alive =>
      rcases i.zalive o e (by omega) with ⟨v, h | h⟩ | ⟨t, x, h | h⟩
      · rw [hv v] at h; cases h
      · rw [hv v] at h; cases h
      · rw [hq t] at h; cases h
      · rw [hq t] at h; cases h
    | dying => obtain ⟨v, h⟩ := i.dying o e; rw [hv v] at h; cases h

/-- C47, values: a pointer used by a running operation is not changed by anybody. -/
theorem C47_stable_partial {cf : Cfg} (hs : cf.strict = true) {s s' : St} (h : Reach cf s) (t : Tr cf s s') {k v : Nat} (hv : v ∈ s.rd k) : s'.ptr v = s.ptr v := by
  have i := h.inv hs
  have a := i.wrd k v hv
  obtain ⟨b1, b2, b3, b4⟩ := i.rlive k v hv
  have b5 := i.halive k v (.inl hv)
  have p1 := i.pcpy
  have p2 := i.pcadd
  have p3 := i.pnew
  have p5 := i.paset
  have p6 := i.pmset
  clear i
  cases t <;> (try (rename_i hl; obtain ⟨l1, l2, l3, l4, l5, l6, l7, l8⟩ := hl)) <;> simp only [St.done, St.start, St.add, St.alloc] <;> grind [upd]

/-- C47, values: the assignment ends with both pointers to the object of the source, the copy constructor too. -/
theorem C47_value_partial {cf : Cfg} (hs : cf.strict = true) {s s' : St} (h : Reach cf s) (t : Tr cf s s') {k x y : Nat} (hk : s.pc k = .aset x y ∨ s.pc k = .cadd x y)
    (hd : s'.pc k = .idle) : s'.ptr x = s.ptr y ∧ s'.ptr y = s.ptr y := by
  have i := h.inv hs
  have p2 := i.pcadd
  have p5 := i.paset
  have p6 := i.wrd
  clear i
  cases t <;> (try (rename_i hl; obtain ⟨l1, l2, l3, l4, l5, l6, l7, l8⟩ := hl)) <;> simp only [St.done, St.start, St.add, St.alloc] at hd ⊢ <;> grind [upd]

theorem lock0 {cf : Cfg} {s : St} {x : Nat} (hs : cf.strict = false) (hx : s.wl x = none) (hr : ∀ t, s.rd t = []) (hn : x < cf.nv) (hd : s.dt x = false) :
    Lockable cf s [x] [] := by
  constructor <;> simp_all

/-- C47 is false for a pointer assigned to itself (refCntPtr.h:150-156): the pointer is lost although the object stays alive; nobody refers to it and nobody ever destroys it. -/
theorem C47_self_violated : ∃ s, Reach { nv := 1, nt := 1, strict := false } s ∧ (∀ t, s.pc t = .idle) ∧ (∀ v, s.vp v = .no) ∧ s.st 1 = .alive ∧ s.cnt 1 = 1 ∧ ∀ v, s.ptr v = 0 := by
  have r1 := Reach.step (cf := { nv := 1, nt := 1, strict := false }) .init (.new _ 0 0 1 [] (by decide) rfl rfl rfl (by decide) rfl (lock0 rfl rfl (fun _ => rfl) (by decide) rfl))
  have r2 := Reach.step r1 (.newSet _ 0 0 1 (by decide) rfl rfl)
  have r3 := Reach.step r2 (.newAdd _ 0 0 1 (by decide) rfl)
  have r4 := Reach.step r3 (.assign _ 0 0 0 [] (by decide) rfl rfl rfl (lock0 rfl rfl (fun t => by simp [St.done, St.start, St.add, St.alloc, upd]) (by decide) rfl))
  have r5 := Reach.step r4 (.asgAdd _ 0 0 0 (by decide) rfl)
  have r6 := Reach.step r5 (.relDec _ 0 rfl (by decide) (by decide))
  have r7 := Reach.step r6 (.nul _ 0 rfl)
  have r8 := Reach.step r7 (.asgSet _ 0 0 0 (by decide) rfl rfl)
  refine ⟨_, r8, fun t => ?_, fun v => ?_, rfl, rfl, fun v => ?_⟩
  · cases t <;> rfl
  · cases v <;> rfl
  · cases v <;> rfl

/-- C47 is false for `p = p->next` (refCntPtr.h:150-156): the release of the old object destroys the source of the assignment before it is read. -/
theorem C47_next_violated : ∃ s, Reach { nv := 6, nt := 1, home := fun v => if v = 5 then 1 else 0, strict := false } s ∧ UB s ∧ s.pc 0 = .aset 0 5 ∧ s.st 1 = .freed := by
  let cf : Cfg := { nv := 6, nt := 1, home := fun v => if v = 5 then 1 else 0, strict := false }
  have r1 := Reach.step (cf := cf) .init (.new _ 0 0 1 [] (by decide) rfl rfl rfl (by decide) rfl (lock0 rfl rfl (fun _ => rfl) (by decide) rfl))
  have r2 := Reach.step r1 (.newSet _ 0 0 1 (by decide) rfl rfl)
  have r3 := Reach.step r2 (.newAdd _ 0 0 1 (by decide) rfl)
  have r4 := Reach.step r3 (.new _ 0 1 2 [] (by decide) rfl rfl rfl (by decide) rfl (lock0 rfl rfl (fun t => by simp [St.done, St.start, St.add, St.alloc, upd]) (by decide) rfl))
  have r5 := Reach.step r4 (.newSet _ 0 1 2 (by decide) rfl rfl)
  have r6 := Reach.step r5 (.newAdd _ 0 1 2 (by decide) rfl)
  -- p->next = q
  have r7 := Reach.step r6 (.assign _ 0 5 1 [] (by decide) rfl rfl rfl (lock0 rfl rfl (fun t => by simp [St.done, St.start, St.add, St.alloc, upd]) (by decide) rfl))
  have r8 := Reach.step r7 (.asgAdd _ 0 5 1 (by decide) rfl)
  have r9 := Reach.step r8 (.relNull _ 5 rfl rfl)
  have r10 := Reach.step r9 (.asgSet _ 0 5 1 (by decide) rfl rfl)
  -- p = p->next
  have r11 := Reach.step r10 (.assign _ 0 0 5 [] (by decide) rfl rfl rfl (lock0 rfl rfl (fun t => by simp [St.done, St.start, St.add, St.alloc, upd]) (by decide) rfl))
  have r12 := Reach.step r11 (.asgAdd _ 0 0 5 (by decide) rfl)
  have r13 := Reach.step r12 (.relZero _ 0 rfl (by decide) (by decide))
  have r14 := Reach.step r13 (.nulk _ 0 1 rfl)
  have r15 := Reach.step r14 (.kill _ 0 1 rfl)
  have r16 := Reach.step r15 (.relDec _ 5 rfl (by decide) (by decide))
  have r17 := Reach.step r16 (.nul _ 5 rfl)
  have r18 := Reach.step r17 (.die _ 5 rfl rfl)
  have r19 := Reach.step r18 (.free _ 1 rfl (fun u hu => by
    have : u = 5 := by simp only [cf] at hu; split at hu <;> simp_all
    subst this; rfl))
  have r20 := Reach.step r19 (.fin _ 0 1 rfl rfl)
  exact ⟨_, r20, .aset 0 0 5 rfl rfl (.inr rfl), rfl, rfl⟩

/-- C47 is false for `create` on a pointer which shares its object (refCntPtr.h:272, allocPointer.h:135-139): the object is destroyed while another pointer refers to it. -/
theorem C47_create_violated : ∃ s, Reach { nv := 2, nt := 1, strict := false } s ∧ s.vl 1 = true ∧ s.wl 1 = none ∧ s.ptr 1 = 1 ∧ s.st 1 = .freed := by
  let cf : Cfg := { nv := 2, nt := 1, strict := false }
  have r1 := Reach.step (cf := cf) .init (.new _ 0 0 1 [] (by decide) rfl rfl rfl (by decide) rfl (lock0 rfl rfl (fun _ => rfl) (by decide) rfl))
  have r2 := Reach.step r1 (.newSet _ 0 0 1 (by decide) rfl rfl)
  have r3 := Reach.step r2 (.newAdd _ 0 0 1 (by decide) rfl)
  have r4 := Reach.step r3 (.empty _ 1 rfl rfl (lock0 rfl rfl (fun t => by simp [St.done, St.start, St.add, St.alloc, upd]) (by decide) rfl))
  have r5 := Reach.step r4 (.assign _ 0 1 0 [] (by decide) rfl rfl rfl (lock0 rfl rfl (fun t => by simp [St.done, St.start, St.add, St.alloc, upd]) (by decide) rfl))
  have r6 := Reach.step r5 (.asgAdd _ 0 1 0 (by decide) rfl)
  have r7 := Reach.step r6 (.relNull _ 1 rfl rfl)
  have r8 := Reach.step r7 (.asgSet _ 0 1 0 (by decide) rfl rfl)
  have r9 := Reach.step r8 (.create _ 0 0 2 [] (by decide) rfl rfl (by decide) rfl (fun h => by cases h) (lock0 rfl rfl (fun t => by simp [St.done, St.start, St.add, St.alloc, upd]) (by decide) rfl))
  have r10 := Reach.step r9 (.nulk _ 0 1 rfl)
  have r11 := Reach.step r10 (.kill _ 0 1 rfl)
  have r12 := Reach.step r11 (.free _ 1 rfl (fun u hu => by simp [cf] at hu))
  exact ⟨_, r12, rfl, rfl, rfl, rfl⟩

theorem lockD {cf : Cfg} {s : St} {W R : List Nat} (hr : ∀ t, s.rd t = [])
    (hw : (W.all fun v => s.wl v == none && decide (v < cf.nv) && !s.dt v && !R.contains v && (cf.home v == 0 || R.any fun g => s.ptr g == cf.home v)) = true)
    (h : (R.all fun v => s.wl v == none && s.vl v && !s.dt v && (cf.home v == 0 || R.any fun g => s.ptr g == cf.home v)) = true) : Lockable cf s W R := by
  simp only [List.all_eq_true, Bool.and_eq_true, Bool.or_eq_true, beq_iff_eq, decide_eq_true_eq, List.any_eq_true, Bool.not_eq_true', List.contains_eq_mem, decide_eq_false_iff_not] at hw h
  exact ⟨fun v hv => ⟨(hw v hv).1.1.1.1, fun t => by simp [hr t]⟩, fun v hv => (h v hv).1.1.1, fun v hv => (hw v hv).1.1.1.2, fun v hv => ⟨(h v hv).1.1.2, (h v hv).1.2⟩,
    fun v hv => (hw v hv).1.1.2, fun _ v hv => (hw v hv).1.2, fun _ v hv hh => (hw v hv).2.resolve_left hh, fun _ v hv hh => (h v hv).2.resolve_left hh⟩

/-- By the rules: a list of two objects; object 2 is kept by a member of object 1 only, and both are destroyed with the last pointer to object 1. -/
example : ∃ s, Reach { nv := 6, nt := 1, home := fun v => if v = 5 then 1 else 0 } s ∧ s.log = [1, 2] ∧ s.st 1 = .freed ∧ s.st 2 = .freed ∧ (∀ t, s.pc t = .idle) := by
  let cf : Cfg := { nv := 6, nt := 1, home := fun v => if v = 5 then 1 else 0 }
  have r1 := Reach.step (cf := cf) .init (.new _ 0 0 1 [] (by decide) rfl rfl rfl (by decide) rfl (lockD (fun _ => rfl) rfl rfl))
  have r2 := Reach.step r1 (.newSet _ 0 0 1 (by decide) rfl rfl)
  have r3 := Reach.step r2 (.newAdd _ 0 0 1 (by decide) rfl)
  have r4 := Reach.step r3 (.new _ 0 1 2 [] (by decide) rfl rfl rfl (by decide) rfl (lockD (fun t => by simp [St.done, St.start, St.add, St.alloc, upd]) rfl rfl))
  have r5 := Reach.step r4 (.newSet _ 0 1 2 (by decide) rfl rfl)
  have r6 := Reach.step r5 (.newAdd _ 0 1 2 (by decide) rfl)
  -- p->next = q, with p kept
  have r7 := Reach.step r6 (.assign _ 0 5 1 [1, 0] (by decide) rfl rfl (by decide) (lockD (fun t => by simp [St.done, St.start, St.add, St.alloc, upd]) rfl rfl))
  have r8 := Reach.step r7 (.asgAdd _ 0 5 1 (by decide) rfl)
  have r9 := Reach.step r8 (.relNull _ 5 rfl rfl)
  have r10 := Reach.step r9 (.asgSet _ 0 5 1 (by decide) rfl rfl)
  -- q is destroyed
  have r11 := Reach.step r10 (.dest _ 0 1 [] (by decide) rfl rfl rfl (lockD (fun t => by cases t <;> rfl) rfl rfl))
  have r12 := Reach.step r11 (.relDec _ 1 rfl (by decide) (by decide))
  have r13 := Reach.step r12 (.nul _ 1 rfl)
  have r14 := Reach.step r13 (.die _ 1 rfl rfl)
  have r15 := Reach.step r14 (.destDone _ 0 1 (by decide) rfl rfl)
  -- p is destroyed
  have r16 := Reach.step r15 (.dest _ 0 0 [] (by decide) rfl rfl rfl (lockD (fun t => by cases t <;> rfl) rfl rfl))
  have r17 := Reach.step r16 (.relZero _ 0 rfl (by decide) (by decide))
  have r18 := Reach.step r17 (.nulk _ 0 1 rfl)
  have r19 := Reach.step r18 (.kill _ 0 1 rfl)
  have r20 := Reach.step r19 (.relZero _ 5 rfl (by decide) (by decide))
  have r21 := Reach.step r20 (.nulk _ 5 2 rfl)
  have r22 := Reach.step r21 (.kill _ 5 2 rfl)
  have r23 := Reach.step r22 (.free _ 2 rfl (fun u hu => by simp only [cf] at hu; split at hu <;> simp_all))
  have r24 := Reach.step r23 (.fin _ 5 2 rfl rfl)
  have r25 := Reach.step r24 (.die _ 5 rfl rfl)
  have r26 := Reach.step r25 (.free _ 1 rfl (fun u hu => by
    have : u = 5 := by simp only [cf] at hu; split at hu <;> simp_all
    subst this; rfl))
  have r27 := Reach.step r26 (.fin _ 0 1 rfl rfl)
  have r28 := Reach.step r27 (.die _ 0 rfl rfl)
  have r29 := Reach.step r28 (.destDone _ 0 0 (by decide) rfl rfl)
  exact ⟨_, r29, rfl, rfl, rfl, fun t => by cases t <;> rfl⟩
end LS.RefCnt
