import Verif.RefCntInv
/-
Every step of counted pointers keeps the invariant, one theorem for each field.
-/
namespace LS.RefCnt
open LS.FastLock (upd upd_same upd_ne)
set_option maxHeartbeats 4000000
set_option linter.unusedVariables false

theorem Inv.s_cnt {cf : Cfg} (hs : cf.strict = true) {s s' : St} (i : Inv cf s) (h : Tr cf s s') : ∀ o, o ≠ 0 → s'.cnt o = cE s'.own o cf.nv + cE s'.pend o cf.nt := by
  have n1 : ∀ o v, o ≠ 0 → s.cnt o = 0 → s.own v ≠ o := fun o v => i.noOwn
  have n2 : ∀ o t, o ≠ 0 → s.cnt o = 0 → s.pend t ≠ o := fun o t => i.noPend
  have r1 : ∀ v, s.vp v = .rel → s.ptr v ≠ 0 → s.own v = s.ptr v := fun v => i.relOwn
  have i_wrd := i.wrd
  have i_wlp := i.wlp
  have i_pidle := i.pidle
  have i_cnt := i.cnt
  have i_ownb := i.ownb
  have i_wrb := i.wrb
  have i_pcb := i.pcb
  have i_own := i.own
  have i_ptr := i.ptr
  have i_npend := i.npend
  have i_pend := i.pend
  have i_pcadd := i.pcadd
  have i_pnadd := i.pnadd
  have i_paset := i.paset
  have i_pmset := i.pmset
  have i_rlive := i.rlive
  have i_busy := i.busy
  have i_pcpy := i.pcpy
  have i_newo := i.newo
  clear i
  cases h <;> (try (rename_i hl; obtain ⟨l1, l2, l3, l4, l5, l6, l7, l8⟩ := hl)) <;> simp only [St.done, St.start, St.add, St.alloc] <;>
    first | assumption | grind (splits := 20) [upd, cE_upd, cE_pos, P.adding, P.writes, P.isAset]

theorem Inv.s_ownb {cf : Cfg} (hs : cf.strict = true) {s s' : St} (i : Inv cf s) (h : Tr cf s s') : ∀ v, s'.own v ≠ 0 → v < cf.nv := by
  have n1 : ∀ o v, o ≠ 0 → s.cnt o = 0 → s.own v ≠ o := fun o v => i.noOwn
  have n2 : ∀ o t, o ≠ 0 → s.cnt o = 0 → s.pend t ≠ o := fun o t => i.noPend
  have i_ownb := i.ownb
  have i_wrb := i.wrb
  have i_pcadd := i.pcadd
  have i_pnadd := i.pnadd
  have i_paset := i.paset
  have i_pmset := i.pmset
  clear i
  cases h <;> (try (rename_i hl; obtain ⟨l1, l2, l3, l4, l5, l6, l7, l8⟩ := hl)) <;> simp only [St.done, St.start, St.add, St.alloc] <;>
    first | assumption | grind (splits := 20) [upd, cE_upd, cE_pos, P.adding, P.writes, P.isAset]

theorem Inv.s_wrb {cf : Cfg} (hs : cf.strict = true) {s s' : St} (i : Inv cf s) (h : Tr cf s s') : ∀ v, s'.wl v ≠ none → v < cf.nv := by
  have n1 : ∀ o v, o ≠ 0 → s.cnt o = 0 → s.own v ≠ o := fun o v => i.noOwn
  have n2 : ∀ o t, o ≠ 0 → s.cnt o = 0 → s.pend t ≠ o := fun o t => i.noPend
  have i_wrb := i.wrb
  have i_pidle := i.pidle
  have i_wlp := i.wlp
  clear i
  cases h <;> (try (rename_i hl; obtain ⟨l1, l2, l3, l4, l5, l6, l7, l8⟩ := hl)) <;> simp only [St.done, St.start, St.add, St.alloc] <;>
    first | assumption | grind (splits := 20) [upd, cE_upd, cE_pos, P.adding, P.writes, P.isAset]

theorem Inv.s_pcb {cf : Cfg} (hs : cf.strict = true) {s s' : St} (i : Inv cf s) (h : Tr cf s s') : ∀ t, s'.pc t ≠ .idle → t < cf.nt := by
  have n1 : ∀ o v, o ≠ 0 → s.cnt o = 0 → s.own v ≠ o := fun o v => i.noOwn
  have n2 : ∀ o t, o ≠ 0 → s.cnt o = 0 → s.pend t ≠ o := fun o t => i.noPend
  have i_pcb := i.pcb
  clear i
  cases h <;> (try (rename_i hl; obtain ⟨l1, l2, l3, l4, l5, l6, l7, l8⟩ := hl)) <;> simp only [St.done, St.start, St.add, St.alloc] <;>
    first | assumption | grind (splits := 20) [upd, cE_upd, cE_pos, P.adding, P.writes, P.isAset]

theorem Inv.s_own {cf : Cfg} (hs : cf.strict = true) {s s' : St} (i : Inv cf s) (h : Tr cf s s') : ∀ v, s'.own v ≠ 0 → s'.ptr v = s'.own v ∧ s'.vl v = true ∧ (s'.vp v = .no ∨ s'.vp v = .rel) ∧ s'.st (s'.own v) = .alive := by
  have n1 : ∀ o v, o ≠ 0 → s.cnt o = 0 → s.own v ≠ o := fun o v => i.noOwn
  have n2 : ∀ o t, o ≠ 0 → s.cnt o = 0 → s.pend t ≠ o := fun o t => i.noPend
  have r5 : ∀ t x o, s.pc t = .new x o → o ≠ 0 ∧ s.st o = .alive ∧ s.cnt o = 0 := fun t x o h => i.newo t x o (.inl h)
  have r6 : ∀ t x o, s.pc t = .nadd x o → o ≠ 0 ∧ s.st o = .alive ∧ s.cnt o = 0 := fun t x o h => i.newo t x o (.inr h)
  have r1 : ∀ v, s.vp v = .rel → s.ptr v ≠ 0 → s.own v = s.ptr v := fun v => i.relOwn
  have i_own := i.own
  have i_ptr := i.ptr
  have i_wrd := i.wrd
  have i_pcpy := i.pcpy
  have i_pcadd := i.pcadd
  have i_pnadd := i.pnadd
  have i_paset := i.paset
  have i_pmset := i.pmset
  have i_rlive := i.rlive
  have i_newo := i.newo
  have i_zero := i.zero
  have i_busy := i.busy
  have i_pnew := i.pnew
  have i_hm := i.hm
  have i_dtv := i.dtv
  have i_dnul := i.dnul
  have i_halive := i.halive
  have i_st0 := i.st0
  clear i
  cases h <;> (try (rename_i hl; obtain ⟨l1, l2, l3, l4, l5, l6, l7, l8⟩ := hl)) <;> simp only [St.done, St.start, St.add, St.alloc] <;>
    first | assumption | grind (splits := 20) [upd, cE_upd, cE_pos, P.adding, P.writes, P.isAset]

theorem Inv.s_ptr {cf : Cfg} (hs : cf.strict = true) {s s' : St} (i : Inv cf s) (h : Tr cf s s') : ∀ v, s'.vl v = true → s'.ptr v ≠ 0 → (s'.vp v = .no ∨ s'.vp v = .rel) → s'.own v ≠ s'.ptr v → s'.wl v ≠ none ∧ ∀ t, s'.wl v = some t → (s'.pc t).adding v = true := by
  have n1 : ∀ o v, o ≠ 0 → s.cnt o = 0 → s.own v ≠ o := fun o v => i.noOwn
  have n2 : ∀ o t, o ≠ 0 → s.cnt o = 0 → s.pend t ≠ o := fun o t => i.noPend
  have r4 : ∀ v u, s.vp v = .kll (cf.home u) → s.wl u = none ∧ s.dt u = false ∧ ∀ t, u ∉ s.rd t := fun v u h => i.killed h rfl
  have r7 : ∀ v o, s.vp v = .kll o → s.ptr v = 0 := fun v o h => i.nptr v o (.inl h)
  have r8 : ∀ v o, s.vp v = .dst o → s.ptr v = 0 := fun v o h => i.nptr v o (.inr h)
  have r2 : ∀ v, s.wl v = none → s.dt v = false → s.vp v = .no := fun v => i.locked
  have r3 : ∀ v, s.vl v = true → s.wl v = none → s.dt v = false → s.own v = s.ptr v := fun v => i.lockOwn
  have i_ptr := i.ptr
  have i_wrd := i.wrd
  have i_pcpy := i.pcpy
  have i_pcadd := i.pcadd
  have i_pnadd := i.pnadd
  have i_paset := i.paset
  have i_pmset := i.pmset
  have i_pwt := i.pwt
  have i_pwd := i.pwd
  have i_rlive := i.rlive
  have i_newo := i.newo
  have i_busy := i.busy
  have i_nptr := i.nptr
  have i_dnul := i.dnul
  have i_own := i.own
  have i_pnew := i.pnew
  have i_hm := i.hm
  have i_pasg := i.pasg
  have i_wlp := i.wlp
  have i_pidle := i.pidle
  clear i
  cases h <;> (try (rename_i hl; obtain ⟨l1, l2, l3, l4, l5, l6, l7, l8⟩ := hl)) <;> simp only [St.done, St.start, St.add, St.alloc] <;>
    first | assumption | grind (splits := 20) [upd, cE_upd, cE_pos, P.adding, P.writes, P.isAset]

theorem Inv.s_pend {cf : Cfg} (hs : cf.strict = true) {s s' : St} (i : Inv cf s) (h : Tr cf s s') : ∀ t x y, s'.pc t = .aset x y → s'.pend t = s'.ptr y := by
  have n1 : ∀ o v, o ≠ 0 → s.cnt o = 0 → s.own v ≠ o := fun o v => i.noOwn
  have n2 : ∀ o t, o ≠ 0 → s.cnt o = 0 → s.pend t ≠ o := fun o t => i.noPend
  have i_pend := i.pend
  have i_pidle := i.pidle
  have i_wlp := i.wlp
  have i_paset := i.paset
  have i_wrd := i.wrd
  have i_rlive := i.rlive
  have i_busy := i.busy
  have i_dtv := i.dtv
  have i_halive := i.halive
  have i_pcpy := i.pcpy
  have i_pcadd := i.pcadd
  have i_pnew := i.pnew
  have i_pmset := i.pmset
  have i_hm := i.hm
  clear i
  cases h <;> (try (rename_i hl; obtain ⟨l1, l2, l3, l4, l5, l6, l7, l8⟩ := hl)) <;> simp only [St.done, St.start, St.add, St.alloc] <;>
    first | assumption | grind (splits := 20) [upd, cE_upd, cE_pos, P.adding, P.writes, P.isAset]

theorem Inv.s_npend {cf : Cfg} (hs : cf.strict = true) {s s' : St} (i : Inv cf s) (h : Tr cf s s') : ∀ t, s'.pend t ≠ 0 → (s'.pc t).isAset = true := by
  have n1 : ∀ o v, o ≠ 0 → s.cnt o = 0 → s.own v ≠ o := fun o v => i.noOwn
  have n2 : ∀ o t, o ≠ 0 → s.cnt o = 0 → s.pend t ≠ o := fun o t => i.noPend
  have i_npend := i.npend
  have i_pend := i.pend
  clear i
  cases h <;> (try (rename_i hl; obtain ⟨l1, l2, l3, l4, l5, l6, l7, l8⟩ := hl)) <;> simp only [St.done, St.start, St.add, St.alloc] <;>
    first | assumption | grind (splits := 20) [upd, cE_upd, cE_pos, P.adding, P.writes, P.isAset]

theorem Inv.s_pal {cf : Cfg} (hs : cf.strict = true) {s s' : St} (i : Inv cf s) (h : Tr cf s s') : ∀ t, s'.pend t ≠ 0 → s'.st (s'.pend t) = .alive := by
  have n1 : ∀ o v, o ≠ 0 → s.cnt o = 0 → s.own v ≠ o := fun o v => i.noOwn
  have n2 : ∀ o t, o ≠ 0 → s.cnt o = 0 → s.pend t ≠ o := fun o t => i.noPend
  have r5 : ∀ t x o, s.pc t = .new x o → o ≠ 0 ∧ s.st o = .alive ∧ s.cnt o = 0 := fun t x o h => i.newo t x o (.inl h)
  have r6 : ∀ t x o, s.pc t = .nadd x o → o ≠ 0 ∧ s.st o = .alive ∧ s.cnt o = 0 := fun t x o h => i.newo t x o (.inr h)
  have i_pasg := i.pasg
  have i_rlive := i.rlive
  have i_pcadd := i.pcadd
  have i_pal := i.pal
  have i_npend := i.npend
  have i_pend := i.pend
  have i_paset := i.paset
  have i_rlive := i.rlive
  have i_own := i.own
  have i_newo := i.newo
  have i_zero := i.zero
  clear i
  cases h <;> (try (rename_i hl; obtain ⟨l1, l2, l3, l4, l5, l6, l7, l8⟩ := hl)) <;> simp only [St.done, St.start, St.add, St.alloc] <;>
    first | assumption | grind (splits := 20) [upd, cE_upd, cE_pos, P.adding, P.writes, P.isAset]

theorem Inv.s_zero {cf : Cfg} (hs : cf.strict = true) {s s' : St} (i : Inv cf s) (h : Tr cf s s') : ∀ v o, s'.vp v = .nulk o ∨ s'.vp v = .kll o → o ≠ 0 ∧ s'.st o = .alive ∧ s'.cnt o = 0 := by
  have n1 : ∀ o v, o ≠ 0 → s.cnt o = 0 → s.own v ≠ o := fun o v => i.noOwn
  have n2 : ∀ o t, o ≠ 0 → s.cnt o = 0 → s.pend t ≠ o := fun o t => i.noPend
  have r1 : ∀ v, s.vp v = .rel → s.ptr v ≠ 0 → s.own v = s.ptr v := fun v => i.relOwn
  have r11 : ∀ t x o v, s.pc t = .nadd x o → s.vp v ≠ .nulk o ∧ s.vp v ≠ .kll o := fun t x o v h => i.newz t x o (.inr h) v
  have i_zero := i.zero
  have i_uniq := i.uniq
  have i_cnt := i.cnt
  have i_newo := i.newo
  have i_newz := i.newz
  have i_own := i.own
  have i_ptr := i.ptr
  have i_rlive := i.rlive
  have i_pasg := i.pasg
  have i_wrb := i.wrb
  have i_ownb := i.ownb
  have i_pend := i.pend
  have i_npend := i.npend
  have i_pcadd := i.pcadd
  have i_pnadd := i.pnadd
  have i_st0 := i.st0
  have i_paset := i.paset
  clear i
  cases h <;> (try (rename_i hl; obtain ⟨l1, l2, l3, l4, l5, l6, l7, l8⟩ := hl)) <;> simp only [St.done, St.start, St.add, St.alloc] <;>
    first | assumption | grind (splits := 20) [upd, cE_upd, cE_pos, P.adding, P.writes, P.isAset]

theorem Inv.s_uniq {cf : Cfg} (hs : cf.strict = true) {s s' : St} (i : Inv cf s) (h : Tr cf s s') : ∀ v v' o, (s'.vp v = .nulk o ∨ s'.vp v = .kll o) → (s'.vp v' = .nulk o ∨ s'.vp v' = .kll o) → v = v' := by
  have n1 : ∀ o v, o ≠ 0 → s.cnt o = 0 → s.own v ≠ o := fun o v => i.noOwn
  have n2 : ∀ o t, o ≠ 0 → s.cnt o = 0 → s.pend t ≠ o := fun o t => i.noPend
  have r1 : ∀ v, s.vp v = .rel → s.ptr v ≠ 0 → s.own v = s.ptr v := fun v => i.relOwn
  have i_uniq := i.uniq
  have i_zero := i.zero
  have i_own := i.own
  have i_ptr := i.ptr
  have i_pcadd := i.pcadd
  have i_pnadd := i.pnadd
  clear i
  cases h <;> (try (rename_i hl; obtain ⟨l1, l2, l3, l4, l5, l6, l7, l8⟩ := hl)) <;> simp only [St.done, St.start, St.add, St.alloc] <;>
    first | assumption | grind (splits := 20) [upd, cE_upd, cE_pos, P.adding, P.writes, P.isAset]

theorem Inv.s_dst {cf : Cfg} (hs : cf.strict = true) {s s' : St} (i : Inv cf s) (h : Tr cf s s') : ∀ v o, s'.vp v = .dst o → s'.st o = .dying ∨ s'.st o = .freed := by
  have n1 : ∀ o v, o ≠ 0 → s.cnt o = 0 → s.own v ≠ o := fun o v => i.noOwn
  have n2 : ∀ o t, o ≠ 0 → s.cnt o = 0 → s.pend t ≠ o := fun o t => i.noPend
  have i_dst := i.dst
  have i_zero := i.zero
  clear i
  cases h <;> (try (rename_i hl; obtain ⟨l1, l2, l3, l4, l5, l6, l7, l8⟩ := hl)) <;> simp only [St.done, St.start, St.add, St.alloc] <;>
    first | assumption | grind (splits := 20) [upd, cE_upd, cE_pos, P.adding, P.writes, P.isAset]

theorem Inv.s_nptr {cf : Cfg} (hs : cf.strict = true) {s s' : St} (i : Inv cf s) (h : Tr cf s s') : ∀ v o, s'.vp v = .kll o ∨ s'.vp v = .dst o → s'.ptr v = 0 := by
  have n1 : ∀ o v, o ≠ 0 → s.cnt o = 0 → s.own v ≠ o := fun o v => i.noOwn
  have n2 : ∀ o t, o ≠ 0 → s.cnt o = 0 → s.pend t ≠ o := fun o t => i.noPend
  have i_nptr := i.nptr
  have i_busy := i.busy
  have i_wrd := i.wrd
  have i_pcpy := i.pcpy
  have i_pcadd := i.pcadd
  have i_pnew := i.pnew
  have i_pnadd := i.pnadd
  have i_paset := i.paset
  have i_pmset := i.pmset
  clear i
  cases h <;> (try (rename_i hl; obtain ⟨l1, l2, l3, l4, l5, l6, l7, l8⟩ := hl)) <;> simp only [St.done, St.start, St.add, St.alloc] <;>
    first | assumption | grind (splits := 20) [upd, cE_upd, cE_pos, P.adding, P.writes, P.isAset]

theorem Inv.s_busy {cf : Cfg} (hs : cf.strict = true) {s s' : St} (i : Inv cf s) (h : Tr cf s s') : ∀ v, s'.vp v ≠ .no → s'.vl v = true ∧ (s'.dt v = true ∨ s'.wl v ≠ none) := by
  have n1 : ∀ o v, o ≠ 0 → s.cnt o = 0 → s.own v ≠ o := fun o v => i.noOwn
  have n2 : ∀ o t, o ≠ 0 → s.cnt o = 0 → s.pend t ≠ o := fun o t => i.noPend
  have i_busy := i.busy
  have i_pidle := i.pidle
  have i_wlp := i.wlp
  have i_pcpy := i.pcpy
  have i_pnew := i.pnew
  have i_pwt := i.pwt
  have i_pwd := i.pwd
  have i_paset := i.paset
  have i_pmset := i.pmset
  have i_hm := i.hm
  have i_hd := i.hd
  have i_dtv := i.dtv
  have i_pcadd := i.pcadd
  have i_pnadd := i.pnadd
  have i_pasg := i.pasg
  have i_wrd := i.wrd
  clear i
  cases h <;> (try (rename_i hl; obtain ⟨l1, l2, l3, l4, l5, l6, l7, l8⟩ := hl)) <;> simp only [St.done, St.start, St.add, St.alloc] <;>
    first | assumption | grind (splits := 20) [upd, cE_upd, cE_pos, P.adding, P.writes, P.isAset]

theorem Inv.s_dtv {cf : Cfg} (hs : cf.strict = true) {s s' : St} (i : Inv cf s) (h : Tr cf s s') : ∀ v, s'.dt v = true → s'.vl v = true ∧ (cf.home v ≠ 0 → s'.st (cf.home v) = .dying) ∧ (cf.home v = 0 → s'.wl v ≠ none ∧ ∀ t, s'.wl v = some t → s'.pc t = .wd v) := by
  have n1 : ∀ o v, o ≠ 0 → s.cnt o = 0 → s.own v ≠ o := fun o v => i.noOwn
  have n2 : ∀ o t, o ≠ 0 → s.cnt o = 0 → s.pend t ≠ o := fun o t => i.noPend
  have i_dtv := i.dtv
  have i_pidle := i.pidle
  have i_wlp := i.wlp
  have i_pwd := i.pwd
  have i_busy := i.busy
  have i_hm := i.hm
  have i_hd := i.hd
  have i_pcpy := i.pcpy
  have i_pnew := i.pnew
  have i_zero := i.zero
  have i_halive := i.halive
  have i_pcadd := i.pcadd
  have i_pnadd := i.pnadd
  have i_pasg := i.pasg
  have i_paset := i.paset
  have i_pmset := i.pmset
  have i_pwt := i.pwt
  have i_wrd := i.wrd
  clear i
  cases h <;> (try (rename_i hl; obtain ⟨l1, l2, l3, l4, l5, l6, l7, l8⟩ := hl)) <;> simp only [St.done, St.start, St.add, St.alloc] <;>
    first | assumption | grind (splits := 20) [upd, cE_upd, cE_pos, P.adding, P.writes, P.isAset]

theorem Inv.s_wrd {cf : Cfg} (hs : cf.strict = true) {s s' : St} (i : Inv cf s) (h : Tr cf s s') : ∀ t v, v ∈ s'.rd t → s'.wl v = none := by
  have n1 : ∀ o v, o ≠ 0 → s.cnt o = 0 → s.own v ≠ o := fun o v => i.noOwn
  have n2 : ∀ o t, o ≠ 0 → s.cnt o = 0 → s.pend t ≠ o := fun o t => i.noPend
  have i_wrd := i.wrd
  have i_pidle := i.pidle
  have i_wlp := i.wlp
  clear i
  cases h <;> (try (rename_i hl; obtain ⟨l1, l2, l3, l4, l5, l6, l7, l8⟩ := hl)) <;> simp only [St.done, St.start, St.add, St.alloc] <;>
    first | assumption | grind (splits := 20) [upd, cE_upd, cE_pos, P.adding, P.writes, P.isAset]

theorem Inv.s_rlive {cf : Cfg} (hs : cf.strict = true) {s s' : St} (i : Inv cf s) (h : Tr cf s s') : ∀ t v, v ∈ s'.rd t → s'.vl v = true ∧ s'.vp v = .no ∧ s'.dt v = false ∧ s'.own v = s'.ptr v := by
  have n1 : ∀ o v, o ≠ 0 → s.cnt o = 0 → s.own v ≠ o := fun o v => i.noOwn
  have n2 : ∀ o t, o ≠ 0 → s.cnt o = 0 → s.pend t ≠ o := fun o t => i.noPend
  have i_rlive := i.rlive
  have i_wrd := i.wrd
  have i_pidle := i.pidle
  have i_wlp := i.wlp
  have i_halive := i.halive
  have i_guard := i.guard
  have i_busy := i.busy
  have i_dtv := i.dtv
  have i_ptr := i.ptr
  have i_own := i.own
  have i_pcpy := i.pcpy
  have i_pcadd := i.pcadd
  have i_pnew := i.pnew
  have i_pnadd := i.pnadd
  have i_pasg := i.pasg
  have i_paset := i.paset
  have i_pmset := i.pmset
  have i_hm := i.hm
  have i_hd := i.hd
  have i_dnul := i.dnul
  have i_zero := i.zero
  have i_pwt := i.pwt
  have i_pwd := i.pwd
  clear i
  cases h <;> (try (rename_i hl; obtain ⟨l1, l2, l3, l4, l5, l6, l7, l8⟩ := hl)) <;> simp only [St.done, St.start, St.add, St.alloc] <;>
    first | assumption | grind (splits := 20) [upd, cE_upd, cE_pos, P.adding, P.writes, P.isAset]

theorem Inv.s_halive {cf : Cfg} (hs : cf.strict = true) {s s' : St} (i : Inv cf s) (h : Tr cf s s') : ∀ t v, v ∈ s'.rd t ∨ s'.wl v = some t → cf.home v ≠ 0 → s'.st (cf.home v) = .alive := by
  have n1 : ∀ o v, o ≠ 0 → s.cnt o = 0 → s.own v ≠ o := fun o v => i.noOwn
  have n2 : ∀ o t, o ≠ 0 → s.cnt o = 0 → s.pend t ≠ o := fun o t => i.noPend
  have r2 : ∀ v, s.wl v = none → s.dt v = false → s.vp v = .no := fun v => i.locked
  have r3 : ∀ v, s.vl v = true → s.wl v = none → s.dt v = false → s.own v = s.ptr v := fun v => i.lockOwn
  have i_halive := i.halive
  have i_guard := i.guard
  have i_rlive := i.rlive
  have i_own := i.own
  have i_zero := i.zero
  have i_hm := i.hm
  have i_st0 := i.st0
  have i_pcpy := i.pcpy
  have i_pcadd := i.pcadd
  have i_pnew := i.pnew
  have i_pnadd := i.pnadd
  have i_pasg := i.pasg
  have i_paset := i.paset
  have i_pmset := i.pmset
  have i_pwt := i.pwt
  have i_pwd := i.pwd
  have i_wrd := i.wrd
  have i_wlp := i.wlp
  have i_pidle := i.pidle
  clear i
  cases h <;> (try (rename_i hl; obtain ⟨l1, l2, l3, l4, l5, l6, l7, l8⟩ := hl)) <;> simp only [St.done, St.start, St.add, St.alloc] <;>
    first | assumption | grind (splits := 20) [upd, cE_upd, cE_pos, P.adding, P.writes, P.isAset]

theorem Inv.s_wlp {cf : Cfg} (hs : cf.strict = true) {s s' : St} (i : Inv cf s) (h : Tr cf s s') : ∀ v t, s'.wl v = some t → (s'.pc t).writes v = true := by
  have n1 : ∀ o v, o ≠ 0 → s.cnt o = 0 → s.own v ≠ o := fun o v => i.noOwn
  have n2 : ∀ o t, o ≠ 0 → s.cnt o = 0 → s.pend t ≠ o := fun o t => i.noPend
  have i_wlp := i.wlp
  have i_pcpy := i.pcpy
  have i_pcadd := i.pcadd
  have i_pnew := i.pnew
  have i_pnadd := i.pnadd
  have i_pasg := i.pasg
  have i_paset := i.paset
  have i_pmset := i.pmset
  have i_pwt := i.pwt
  have i_pwd := i.pwd
  clear i
  cases h <;> (try (rename_i hl; obtain ⟨l1, l2, l3, l4, l5, l6, l7, l8⟩ := hl)) <;> simp only [St.done, St.start, St.add, St.alloc] <;>
    first | assumption | grind (splits := 20) [upd, cE_upd, cE_pos, P.adding, P.writes, P.isAset]

theorem Inv.s_pidle {cf : Cfg} (hs : cf.strict = true) {s s' : St} (i : Inv cf s) (h : Tr cf s s') : ∀ t, s'.pc t = .idle → s'.rd t = [] := by
  have n1 : ∀ o v, o ≠ 0 → s.cnt o = 0 → s.own v ≠ o := fun o v => i.noOwn
  have n2 : ∀ o t, o ≠ 0 → s.cnt o = 0 → s.pend t ≠ o := fun o t => i.noPend
  have i_pidle := i.pidle
  clear i
  cases h <;> (try (rename_i hl; obtain ⟨l1, l2, l3, l4, l5, l6, l7, l8⟩ := hl)) <;> simp only [St.done, St.start, St.add, St.alloc] <;>
    first | assumption | grind (splits := 20) [upd, cE_upd, cE_pos, P.adding, P.writes, P.isAset]

theorem Inv.s_pcpy {cf : Cfg} (hs : cf.strict = true) {s s' : St} (i : Inv cf s) (h : Tr cf s s') : ∀ t x y, s'.pc t = .cpy x y → s'.wl x = some t ∧ y ∈ s'.rd t ∧ s'.vl x = false ∧ cf.home x = 0 := by
  have n1 : ∀ o v, o ≠ 0 → s.cnt o = 0 → s.own v ≠ o := fun o v => i.noOwn
  have n2 : ∀ o t, o ≠ 0 → s.cnt o = 0 → s.pend t ≠ o := fun o t => i.noPend
  have i_pcpy := i.pcpy
  have i_wrd := i.wrd
  have i_pidle := i.pidle
  have i_wlp := i.wlp
  have i_halive := i.halive
  have i_pcadd := i.pcadd
  have i_pnew := i.pnew
  have i_pnadd := i.pnadd
  have i_pasg := i.pasg
  have i_paset := i.paset
  have i_pmset := i.pmset
  have i_pwt := i.pwt
  have i_pwd := i.pwd
  clear i
  cases h <;> (try (rename_i hl; obtain ⟨l1, l2, l3, l4, l5, l6, l7, l8⟩ := hl)) <;> simp only [St.done, St.start, St.add, St.alloc] <;>
    first | assumption | grind (splits := 20) [upd, cE_upd, cE_pos, P.adding, P.writes, P.isAset]

theorem Inv.s_pcadd {cf : Cfg} (hs : cf.strict = true) {s s' : St} (i : Inv cf s) (h : Tr cf s s') : ∀ t x y, s'.pc t = .cadd x y → s'.wl x = some t ∧ y ∈ s'.rd t ∧ s'.vl x = true ∧ s'.ptr x = s'.ptr y ∧ s'.own x = 0 ∧ s'.vp x = .no := by
  have n1 : ∀ o v, o ≠ 0 → s.cnt o = 0 → s.own v ≠ o := fun o v => i.noOwn
  have n2 : ∀ o t, o ≠ 0 → s.cnt o = 0 → s.pend t ≠ o := fun o t => i.noPend
  have r4 : ∀ v u, s.vp v = .kll (cf.home u) → s.wl u = none ∧ s.dt u = false ∧ ∀ t, u ∉ s.rd t := fun v u h => i.killed h rfl
  have i_pcadd := i.pcadd
  have i_pcpy := i.pcpy
  have i_wrd := i.wrd
  have i_pidle := i.pidle
  have i_wlp := i.wlp
  have i_rlive := i.rlive
  have i_busy := i.busy
  have i_dtv := i.dtv
  have i_halive := i.halive
  have i_own := i.own
  have i_dnul := i.dnul
  have i_pnew := i.pnew
  have i_pnadd := i.pnadd
  have i_paset := i.paset
  have i_pmset := i.pmset
  have i_hm := i.hm
  have i_hd := i.hd
  have i_pwd := i.pwd
  have i_pasg := i.pasg
  have i_pwt := i.pwt
  clear i
  cases h <;> (try (rename_i hl; obtain ⟨l1, l2, l3, l4, l5, l6, l7, l8⟩ := hl)) <;> simp only [St.done, St.start, St.add, St.alloc] <;>
    first | assumption | grind (splits := 20) [upd, cE_upd, cE_pos, P.adding, P.writes, P.isAset]

theorem Inv.s_pnew {cf : Cfg} (hs : cf.strict = true) {s s' : St} (i : Inv cf s) (h : Tr cf s s') : ∀ t x o, s'.pc t = .new x o → s'.wl x = some t ∧ s'.own x = 0 ∧ s'.vp x = .no ∧ (s'.vl x = true → s'.ptr x = 0) ∧ (s'.vl x = false → cf.home x = 0) := by
  have n1 : ∀ o v, o ≠ 0 → s.cnt o = 0 → s.own v ≠ o := fun o v => i.noOwn
  have n2 : ∀ o t, o ≠ 0 → s.cnt o = 0 → s.pend t ≠ o := fun o t => i.noPend
  have r4 : ∀ v u, s.vp v = .kll (cf.home u) → s.wl u = none ∧ s.dt u = false ∧ ∀ t, u ∉ s.rd t := fun v u h => i.killed h rfl
  have i_pnew := i.pnew
  have i_wrd := i.wrd
  have i_pidle := i.pidle
  have i_wlp := i.wlp
  have i_rlive := i.rlive
  have i_busy := i.busy
  have i_dtv := i.dtv
  have i_halive := i.halive
  have i_own := i.own
  have i_pcpy := i.pcpy
  have i_pcadd := i.pcadd
  have i_paset := i.paset
  have i_pmset := i.pmset
  have i_hm := i.hm
  have i_hd := i.hd
  have i_pnadd := i.pnadd
  have i_pasg := i.pasg
  have i_pwt := i.pwt
  have i_pwd := i.pwd
  clear i
  cases h <;> (try (rename_i hl; obtain ⟨l1, l2, l3, l4, l5, l6, l7, l8⟩ := hl)) <;> simp only [St.done, St.start, St.add, St.alloc] <;>
    first | assumption | grind (splits := 20) [upd, cE_upd, cE_pos, P.adding, P.writes, P.isAset]

theorem Inv.s_pnadd {cf : Cfg} (hs : cf.strict = true) {s s' : St} (i : Inv cf s) (h : Tr cf s s') : ∀ t x o, s'.pc t = .nadd x o → s'.wl x = some t ∧ s'.own x = 0 ∧ s'.vp x = .no ∧ s'.vl x = true ∧ s'.ptr x = o := by
  have n1 : ∀ o v, o ≠ 0 → s.cnt o = 0 → s.own v ≠ o := fun o v => i.noOwn
  have n2 : ∀ o t, o ≠ 0 → s.cnt o = 0 → s.pend t ≠ o := fun o t => i.noPend
  have r4 : ∀ v u, s.vp v = .kll (cf.home u) → s.wl u = none ∧ s.dt u = false ∧ ∀ t, u ∉ s.rd t := fun v u h => i.killed h rfl
  have i_pnadd := i.pnadd
  have i_pnew := i.pnew
  have i_wrd := i.wrd
  have i_pidle := i.pidle
  have i_wlp := i.wlp
  have i_rlive := i.rlive
  have i_busy := i.busy
  have i_dtv := i.dtv
  have i_halive := i.halive
  have i_own := i.own
  have i_pcpy := i.pcpy
  have i_pcadd := i.pcadd
  have i_paset := i.paset
  have i_pmset := i.pmset
  have i_hm := i.hm
  have i_hd := i.hd
  have i_pasg := i.pasg
  have i_pwt := i.pwt
  have i_pwd := i.pwd
  clear i
  cases h <;> (try (rename_i hl; obtain ⟨l1, l2, l3, l4, l5, l6, l7, l8⟩ := hl)) <;> simp only [St.done, St.start, St.add, St.alloc] <;>
    first | assumption | grind (splits := 20) [upd, cE_upd, cE_pos, P.adding, P.writes, P.isAset]

theorem Inv.s_newo {cf : Cfg} (hs : cf.strict = true) {s s' : St} (i : Inv cf s) (h : Tr cf s s') : ∀ t x o, s'.pc t = .new x o ∨ s'.pc t = .nadd x o → o ≠ 0 ∧ s'.st o = .alive ∧ s'.cnt o = 0 := by
  have n1 : ∀ o v, o ≠ 0 → s.cnt o = 0 → s.own v ≠ o := fun o v => i.noOwn
  have n2 : ∀ o t, o ≠ 0 → s.cnt o = 0 → s.pend t ≠ o := fun o t => i.noPend
  have r9 : ∀ t t' x x' o, s.pc t = .nadd x o → s.pc t' = .nadd x' o → t = t' := fun t t' x x' o h h' => i.newu t t' x x' o (.inr h) (.inr h')
  have r10 : ∀ t t' x x' o, s.pc t = .nadd x o → s.pc t' ≠ .new x' o := fun t t' x x' o h h' => by
    have := i.newu t t' x x' o (.inr h) (.inl h'); subst this; rw [h] at h'; cases h'
  have r5 : ∀ t x o, s.pc t = .new x o → o ≠ 0 ∧ s.st o = .alive ∧ s.cnt o = 0 := fun t x o h => i.newo t x o (.inl h)
  have r6 : ∀ t x o, s.pc t = .nadd x o → o ≠ 0 ∧ s.st o = .alive ∧ s.cnt o = 0 := fun t x o h => i.newo t x o (.inr h)
  have i_cz := i.cz
  have i_pnadd := i.pnadd
  have i_pcadd := i.pcadd
  have i_newo := i.newo
  have i_newu := i.newu
  have i_zero := i.zero
  have i_rlive := i.rlive
  have i_pcadd := i.pcadd
  have i_pnadd := i.pnadd
  have i_own := i.own
  have i_ptr := i.ptr
  have i_pasg := i.pasg
  have i_newz := i.newz
  clear i
  cases h <;> (try (rename_i hl; obtain ⟨l1, l2, l3, l4, l5, l6, l7, l8⟩ := hl)) <;> simp only [St.done, St.start, St.add, St.alloc] <;>
    first | assumption | grind (splits := 20) [upd, cE_upd, cE_pos, P.adding, P.writes, P.isAset]

theorem Inv.s_newz {cf : Cfg} (hs : cf.strict = true) {s s' : St} (i : Inv cf s) (h : Tr cf s s') : ∀ t x o, s'.pc t = .new x o ∨ s'.pc t = .nadd x o → ∀ v, s'.vp v ≠ .nulk o ∧ s'.vp v ≠ .kll o := by
  have n1 : ∀ o v, o ≠ 0 → s.cnt o = 0 → s.own v ≠ o := fun o v => i.noOwn
  have n2 : ∀ o t, o ≠ 0 → s.cnt o = 0 → s.pend t ≠ o := fun o t => i.noPend
  have r1 : ∀ v, s.vp v = .rel → s.ptr v ≠ 0 → s.own v = s.ptr v := fun v => i.relOwn
  have r5 : ∀ t x o, s.pc t = .new x o → o ≠ 0 ∧ s.st o = .alive ∧ s.cnt o = 0 := fun t x o h => i.newo t x o (.inl h)
  have r6 : ∀ t x o, s.pc t = .nadd x o → o ≠ 0 ∧ s.st o = .alive ∧ s.cnt o = 0 := fun t x o h => i.newo t x o (.inr h)
  have i_newz := i.newz
  have i_newo := i.newo
  have i_zero := i.zero
  have i_own := i.own
  have i_ptr := i.ptr
  have i_pcadd := i.pcadd
  have i_pnadd := i.pnadd
  clear i
  cases h <;> (try (rename_i hl; obtain ⟨l1, l2, l3, l4, l5, l6, l7, l8⟩ := hl)) <;> simp only [St.done, St.start, St.add, St.alloc] <;>
    first | assumption | grind (splits := 20) [upd, cE_upd, cE_pos, P.adding, P.writes, P.isAset]

theorem Inv.s_newu {cf : Cfg} (hs : cf.strict = true) {s s' : St} (i : Inv cf s) (h : Tr cf s s') : ∀ t t' x x' o, s'.pc t = .new x o ∨ s'.pc t = .nadd x o → s'.pc t' = .new x' o ∨ s'.pc t' = .nadd x' o → t = t' := by
  have n1 : ∀ o v, o ≠ 0 → s.cnt o = 0 → s.own v ≠ o := fun o v => i.noOwn
  have n2 : ∀ o t, o ≠ 0 → s.cnt o = 0 → s.pend t ≠ o := fun o t => i.noPend
  have i_newu := i.newu
  have i_newo := i.newo
  clear i
  cases h <;> (try (rename_i hl; obtain ⟨l1, l2, l3, l4, l5, l6, l7, l8⟩ := hl)) <;> simp only [St.done, St.start, St.add, St.alloc] <;>
    first | assumption | grind (splits := 20) [upd, cE_upd, cE_pos, P.adding, P.writes, P.isAset]

theorem Inv.s_pasg {cf : Cfg} (hs : cf.strict = true) {s s' : St} (i : Inv cf s) (h : Tr cf s s') : ∀ t x y, s'.pc t = .asg x y → s'.wl x = some t ∧ y ∈ s'.rd t ∧ s'.vl x = true ∧ s'.vp x = .no := by
  have n1 : ∀ o v, o ≠ 0 → s.cnt o = 0 → s.own v ≠ o := fun o v => i.noOwn
  have n2 : ∀ o t, o ≠ 0 → s.cnt o = 0 → s.pend t ≠ o := fun o t => i.noPend
  have r4 : ∀ v u, s.vp v = .kll (cf.home u) → s.wl u = none ∧ s.dt u = false ∧ ∀ t, u ∉ s.rd t := fun v u h => i.killed h rfl
  have r2 : ∀ v, s.wl v = none → s.dt v = false → s.vp v = .no := fun v => i.locked
  have r3 : ∀ v, s.vl v = true → s.wl v = none → s.dt v = false → s.own v = s.ptr v := fun v => i.lockOwn
  have i_pasg := i.pasg
  have i_wrd := i.wrd
  have i_pidle := i.pidle
  have i_wlp := i.wlp
  have i_rlive := i.rlive
  have i_busy := i.busy
  have i_dtv := i.dtv
  have i_halive := i.halive
  have i_hm := i.hm
  have i_hd := i.hd
  have i_pcpy := i.pcpy
  have i_pcadd := i.pcadd
  have i_pnew := i.pnew
  have i_pnadd := i.pnadd
  have i_paset := i.paset
  have i_pmset := i.pmset
  have i_pwt := i.pwt
  have i_pwd := i.pwd
  clear i
  cases h <;> (try (rename_i hl; obtain ⟨l1, l2, l3, l4, l5, l6, l7, l8⟩ := hl)) <;> simp only [St.done, St.start, St.add, St.alloc] <;>
    first | assumption | grind (splits := 20) [upd, cE_upd, cE_pos, P.adding, P.writes, P.isAset]

theorem Inv.s_paset {cf : Cfg} (hs : cf.strict = true) {s s' : St} (i : Inv cf s) (h : Tr cf s s') : ∀ t x y, s'.pc t = .aset x y → s'.wl x = some t ∧ y ∈ s'.rd t ∧ s'.vl x = true ∧ (s'.vp x = .no → s'.ptr x = 0) := by
  have n1 : ∀ o v, o ≠ 0 → s.cnt o = 0 → s.own v ≠ o := fun o v => i.noOwn
  have n2 : ∀ o t, o ≠ 0 → s.cnt o = 0 → s.pend t ≠ o := fun o t => i.noPend
  have r7 : ∀ v o, s.vp v = .kll o → s.ptr v = 0 := fun v o h => i.nptr v o (.inl h)
  have r8 : ∀ v o, s.vp v = .dst o → s.ptr v = 0 := fun v o h => i.nptr v o (.inr h)
  have i_paset := i.paset
  have i_pasg := i.pasg
  have i_wrd := i.wrd
  have i_pidle := i.pidle
  have i_wlp := i.wlp
  have i_rlive := i.rlive
  have i_busy := i.busy
  have i_dtv := i.dtv
  have i_halive := i.halive
  have i_hm := i.hm
  have i_hd := i.hd
  have i_nptr := i.nptr
  have i_pcpy := i.pcpy
  have i_pcadd := i.pcadd
  have i_pnew := i.pnew
  have i_pnadd := i.pnadd
  have i_pmset := i.pmset
  have i_pwt := i.pwt
  have i_pwd := i.pwd
  clear i
  cases h <;> (try (rename_i hl; obtain ⟨l1, l2, l3, l4, l5, l6, l7, l8⟩ := hl)) <;> simp only [St.done, St.start, St.add, St.alloc] <;>
    first | assumption | grind (splits := 20) [upd, cE_upd, cE_pos, P.adding, P.writes, P.isAset]

theorem Inv.s_pmset {cf : Cfg} (hs : cf.strict = true) {s s' : St} (i : Inv cf s) (h : Tr cf s s') : ∀ t x y, s'.pc t = .mset x y → s'.wl x = some t ∧ s'.wl y = some t ∧ x ≠ y ∧ s'.vl x = true ∧ s'.vl y = true ∧ s'.vp y = .no ∧ (s'.vp x = .no → s'.ptr x = 0) := by
  have n1 : ∀ o v, o ≠ 0 → s.cnt o = 0 → s.own v ≠ o := fun o v => i.noOwn
  have n2 : ∀ o t, o ≠ 0 → s.cnt o = 0 → s.pend t ≠ o := fun o t => i.noPend
  have r7 : ∀ v o, s.vp v = .kll o → s.ptr v = 0 := fun v o h => i.nptr v o (.inl h)
  have r8 : ∀ v o, s.vp v = .dst o → s.ptr v = 0 := fun v o h => i.nptr v o (.inr h)
  have r4 : ∀ v u, s.vp v = .kll (cf.home u) → s.wl u = none ∧ s.dt u = false ∧ ∀ t, u ∉ s.rd t := fun v u h => i.killed h rfl
  have r2 : ∀ v, s.wl v = none → s.dt v = false → s.vp v = .no := fun v => i.locked
  have r3 : ∀ v, s.vl v = true → s.wl v = none → s.dt v = false → s.own v = s.ptr v := fun v => i.lockOwn
  have i_pmset := i.pmset
  have i_wrd := i.wrd
  have i_pidle := i.pidle
  have i_wlp := i.wlp
  have i_rlive := i.rlive
  have i_busy := i.busy
  have i_dtv := i.dtv
  have i_halive := i.halive
  have i_hm := i.hm
  have i_hd := i.hd
  have i_nptr := i.nptr
  have i_pcpy := i.pcpy
  have i_pcadd := i.pcadd
  have i_pnew := i.pnew
  have i_pnadd := i.pnadd
  have i_pasg := i.pasg
  have i_paset := i.paset
  have i_pwt := i.pwt
  have i_pwd := i.pwd
  clear i
  cases h <;> (try (rename_i hl; obtain ⟨l1, l2, l3, l4, l5, l6, l7, l8⟩ := hl)) <;> simp only [St.done, St.start, St.add, St.alloc] <;>
    first | assumption | grind (splits := 20) [upd, cE_upd, cE_pos, P.adding, P.writes, P.isAset]

theorem Inv.s_pwt {cf : Cfg} (hs : cf.strict = true) {s s' : St} (i : Inv cf s) (h : Tr cf s s') : ∀ t x, s'.pc t = .wt x → s'.wl x = some t ∧ s'.vl x = true ∧ (s'.vp x = .no → s'.ptr x = 0) := by
  have n1 : ∀ o v, o ≠ 0 → s.cnt o = 0 → s.own v ≠ o := fun o v => i.noOwn
  have n2 : ∀ o t, o ≠ 0 → s.cnt o = 0 → s.pend t ≠ o := fun o t => i.noPend
  have r7 : ∀ v o, s.vp v = .kll o → s.ptr v = 0 := fun v o h => i.nptr v o (.inl h)
  have r8 : ∀ v o, s.vp v = .dst o → s.ptr v = 0 := fun v o h => i.nptr v o (.inr h)
  have r2 : ∀ v, s.wl v = none → s.dt v = false → s.vp v = .no := fun v => i.locked
  have r3 : ∀ v, s.vl v = true → s.wl v = none → s.dt v = false → s.own v = s.ptr v := fun v => i.lockOwn
  have i_pwt := i.pwt
  have i_wrd := i.wrd
  have i_pidle := i.pidle
  have i_wlp := i.wlp
  have i_rlive := i.rlive
  have i_busy := i.busy
  have i_dtv := i.dtv
  have i_halive := i.halive
  have i_hm := i.hm
  have i_hd := i.hd
  have i_nptr := i.nptr
  have i_pcpy := i.pcpy
  have i_pcadd := i.pcadd
  have i_pnew := i.pnew
  have i_pnadd := i.pnadd
  have i_pasg := i.pasg
  have i_paset := i.paset
  have i_pmset := i.pmset
  have i_pwd := i.pwd
  clear i
  cases h <;> (try (rename_i hl; obtain ⟨l1, l2, l3, l4, l5, l6, l7, l8⟩ := hl)) <;> simp only [St.done, St.start, St.add, St.alloc] <;>
    first | assumption | grind (splits := 20) [upd, cE_upd, cE_pos, P.adding, P.writes, P.isAset]

theorem Inv.s_pwd {cf : Cfg} (hs : cf.strict = true) {s s' : St} (i : Inv cf s) (h : Tr cf s s') : ∀ t x, s'.pc t = .wd x → s'.wl x = some t ∧ cf.home x = 0 ∧ (s'.vl x = true → s'.dt x = true) := by
  have n1 : ∀ o v, o ≠ 0 → s.cnt o = 0 → s.own v ≠ o := fun o v => i.noOwn
  have n2 : ∀ o t, o ≠ 0 → s.cnt o = 0 → s.pend t ≠ o := fun o t => i.noPend
  have i_pwd := i.pwd
  have i_wrd := i.wrd
  have i_pidle := i.pidle
  have i_wlp := i.wlp
  have i_dtv := i.dtv
  have i_busy := i.busy
  have i_pcpy := i.pcpy
  have i_pnew := i.pnew
  have i_halive := i.halive
  have i_pcadd := i.pcadd
  have i_pnadd := i.pnadd
  have i_pasg := i.pasg
  have i_paset := i.paset
  have i_pmset := i.pmset
  have i_pwt := i.pwt
  clear i
  cases h <;> (try (rename_i hl; obtain ⟨l1, l2, l3, l4, l5, l6, l7, l8⟩ := hl)) <;> simp only [St.done, St.start, St.add, St.alloc] <;>
    first | assumption | grind (splits := 20) [upd, cE_upd, cE_pos, P.adding, P.writes, P.isAset]

theorem Inv.s_hm {cf : Cfg} (hs : cf.strict = true) {s s' : St} (i : Inv cf s) (h : Tr cf s s') : ∀ v, cf.home v ≠ 0 → s'.vl v = true → s'.st (cf.home v) = .alive ∨ s'.st (cf.home v) = .dying := by
  have n1 : ∀ o v, o ≠ 0 → s.cnt o = 0 → s.own v ≠ o := fun o v => i.noOwn
  have n2 : ∀ o t, o ≠ 0 → s.cnt o = 0 → s.pend t ≠ o := fun o t => i.noPend
  have i_hm := i.hm
  have i_zero := i.zero
  have i_halive := i.halive
  have i_pcpy := i.pcpy
  have i_pnew := i.pnew
  have i_st0 := i.st0
  clear i
  cases h <;> (try (rename_i hl; obtain ⟨l1, l2, l3, l4, l5, l6, l7, l8⟩ := hl)) <;> simp only [St.done, St.start, St.add, St.alloc] <;>
    first | assumption | grind (splits := 20) [upd, cE_upd, cE_pos, P.adding, P.writes, P.isAset]

theorem Inv.s_hd {cf : Cfg} (hs : cf.strict = true) {s s' : St} (i : Inv cf s) (h : Tr cf s s') : ∀ v, cf.home v ≠ 0 → s'.vl v = true → s'.st (cf.home v) = .dying → s'.dt v = true := by
  have n1 : ∀ o v, o ≠ 0 → s.cnt o = 0 → s.own v ≠ o := fun o v => i.noOwn
  have n2 : ∀ o t, o ≠ 0 → s.cnt o = 0 → s.pend t ≠ o := fun o t => i.noPend
  have i_hd := i.hd
  have i_hm := i.hm
  have i_dtv := i.dtv
  have i_halive := i.halive
  have i_pcpy := i.pcpy
  have i_pnew := i.pnew
  have i_zero := i.zero
  clear i
  cases h <;> (try (rename_i hl; obtain ⟨l1, l2, l3, l4, l5, l6, l7, l8⟩ := hl)) <;> simp only [St.done, St.start, St.add, St.alloc] <;>
    first | assumption | grind (splits := 20) [upd, cE_upd, cE_pos, P.adding, P.writes, P.isAset]

theorem Inv.s_dnul {cf : Cfg} (hs : cf.strict = true) {s s' : St} (i : Inv cf s) (h : Tr cf s s') : ∀ v, s'.dt v = true → s'.vp v = .no → s'.ptr v = 0 := by
  have n1 : ∀ o v, o ≠ 0 → s.cnt o = 0 → s.own v ≠ o := fun o v => i.noOwn
  have n2 : ∀ o t, o ≠ 0 → s.cnt o = 0 → s.pend t ≠ o := fun o t => i.noPend
  have r7 : ∀ v o, s.vp v = .kll o → s.ptr v = 0 := fun v o h => i.nptr v o (.inl h)
  have r8 : ∀ v o, s.vp v = .dst o → s.ptr v = 0 := fun v o h => i.nptr v o (.inr h)
  have i_dnul := i.dnul
  have i_dtv := i.dtv
  have i_busy := i.busy
  have i_nptr := i.nptr
  have i_pcpy := i.pcpy
  have i_pcadd := i.pcadd
  have i_pnew := i.pnew
  have i_pnadd := i.pnadd
  have i_paset := i.paset
  have i_pmset := i.pmset
  have i_pwd := i.pwd
  have i_halive := i.halive
  have i_rlive := i.rlive
  have i_pidle := i.pidle
  have i_wlp := i.wlp
  have i_pasg := i.pasg
  have i_pwt := i.pwt
  have i_wrd := i.wrd
  clear i
  cases h <;> (try (rename_i hl; obtain ⟨l1, l2, l3, l4, l5, l6, l7, l8⟩ := hl)) <;> simp only [St.done, St.start, St.add, St.alloc] <;>
    first | assumption | grind (splits := 20) [upd, cE_upd, cE_pos, P.adding, P.writes, P.isAset]

theorem Inv.s_st0 {cf : Cfg} (hs : cf.strict = true) {s s' : St} (i : Inv cf s) (h : Tr cf s s') : s'.st 0 = .none := by
  have n1 : ∀ o v, o ≠ 0 → s.cnt o = 0 → s.own v ≠ o := fun o v => i.noOwn
  have n2 : ∀ o t, o ≠ 0 → s.cnt o = 0 → s.pend t ≠ o := fun o t => i.noPend
  have i_st0 := i.st0
  have i_zero := i.zero
  clear i
  cases h <;> (try (rename_i hl; obtain ⟨l1, l2, l3, l4, l5, l6, l7, l8⟩ := hl)) <;> simp only [St.done, St.start, St.add, St.alloc] <;>
    first | assumption | grind (splits := 20) [upd, cE_upd, cE_pos, P.adding, P.writes, P.isAset]

theorem Inv.s_cz {cf : Cfg} (hs : cf.strict = true) {s s' : St} (i : Inv cf s) (h : Tr cf s s') : ∀ o, s'.st o ≠ .alive → s'.cnt o = 0 := by
  have n1 : ∀ o v, o ≠ 0 → s.cnt o = 0 → s.own v ≠ o := fun o v => i.noOwn
  have n2 : ∀ o t, o ≠ 0 → s.cnt o = 0 → s.pend t ≠ o := fun o t => i.noPend
  have r5 : ∀ t x o, s.pc t = .new x o → o ≠ 0 ∧ s.st o = .alive ∧ s.cnt o = 0 := fun t x o h => i.newo t x o (.inl h)
  have r6 : ∀ t x o, s.pc t = .nadd x o → o ≠ 0 ∧ s.st o = .alive ∧ s.cnt o = 0 := fun t x o h => i.newo t x o (.inr h)
  have r1 : ∀ v, s.vp v = .rel → s.ptr v ≠ 0 → s.own v = s.ptr v := fun v => i.relOwn
  have i_pnadd := i.pnadd
  have i_cz := i.cz
  have i_newo := i.newo
  have i_pasg := i.pasg
  have i_rlive := i.rlive
  have i_own := i.own
  have i_zero := i.zero
  have i_pcadd := i.pcadd
  clear i
  cases h <;> (try (rename_i hl; obtain ⟨l1, l2, l3, l4, l5, l6, l7, l8⟩ := hl)) <;> simp only [St.done, St.start, St.add, St.alloc] <;>
    first | assumption | grind (splits := 20) [upd, cE_upd, cE_pos, P.adding, P.writes, P.isAset]

theorem Inv.s_logn {cf : Cfg} (hs : cf.strict = true) {s s' : St} (i : Inv cf s) (h : Tr cf s s') : s'.log.Nodup := by
  have n1 : ∀ o v, o ≠ 0 → s.cnt o = 0 → s.own v ≠ o := fun o v => i.noOwn
  have n2 : ∀ o t, o ≠ 0 → s.cnt o = 0 → s.pend t ≠ o := fun o t => i.noPend
  have i_logn := i.logn
  have i_logm := i.logm
  have i_zero := i.zero
  clear i
  cases h <;> (try (rename_i hl; obtain ⟨l1, l2, l3, l4, l5, l6, l7, l8⟩ := hl)) <;> simp only [St.done, St.start, St.add, St.alloc] <;>
    first | assumption | grind (splits := 20) [upd, cE_upd, cE_pos, P.adding, P.writes, P.isAset]

theorem Inv.s_logm {cf : Cfg} (hs : cf.strict = true) {s s' : St} (i : Inv cf s) (h : Tr cf s s') : ∀ o, o ∈ s'.log ↔ s'.st o = .dying ∨ s'.st o = .freed := by
  have n1 : ∀ o v, o ≠ 0 → s.cnt o = 0 → s.own v ≠ o := fun o v => i.noOwn
  have n2 : ∀ o t, o ≠ 0 → s.cnt o = 0 → s.pend t ≠ o := fun o t => i.noPend
  have i_logm := i.logm
  have i_zero := i.zero
  have i_dying := i.dying
  clear i
  cases h <;> (try (rename_i hl; obtain ⟨l1, l2, l3, l4, l5, l6, l7, l8⟩ := hl)) <;> simp only [St.done, St.start, St.add, St.alloc] <;>
    first | assumption | grind (splits := 20) [upd, cE_upd, cE_pos, P.adding, P.writes, P.isAset]

theorem Inv.s_guard {cf : Cfg} (hs : cf.strict = true) {s s' : St} (i : Inv cf s) (h : Tr cf s s') : ∀ t v, v ∈ s'.rd t ∨ s'.wl v = some t → cf.home v ≠ 0 → ∃ g ∈ s'.rd t, s'.ptr g = cf.home v := by
  have q1 := i.guard
  have q2 := i.wrd
  have q3 : ∀ o v, o ≠ 0 → s.cnt o = 0 → s.own v ≠ o := fun o v => i.noOwn
  have q4 := i.rlive
  have q5 := i.halive
  have q6 : ∀ v, s.wl v = none → s.dt v = false → s.vp v = .no := fun v => i.locked
  have q7 : ∀ v, s.vl v = true → s.wl v = none → s.dt v = false → s.own v = s.ptr v := fun v => i.lockOwn
  have q8 := i.wlp
  have q9 := i.own
  have q10 := i.pidle
  have p1 := i.pcpy
  have p2 := i.pcadd
  have p3 := i.pnew
  have p4 := i.pnadd
  have p5 := i.paset
  have p6 := i.pmset
  have p7 := i.busy
  intro t' v hv hh
  have key : ∀ g, (v ∈ s.rd t' ∨ s.wl v = some t') → g ∈ s.rd t' → s.ptr g = cf.home v → (g ∈ s'.rd t' ∧ s'.ptr g = cf.home v) → ∃ g ∈ s'.rd t', s'.ptr g = cf.home v := fun g _ _ _ h => ⟨g, h⟩
  by_cases ho : v ∈ s.rd t' ∨ s.wl v = some t'
  · obtain ⟨g, g1, g2⟩ := q1 t' v ho hh
    have k1 := key g ho g1 g2
    clear key
    clear i
    cases h <;> (try (rename_i hl; obtain ⟨l1, l2, l3, l4, l5, l6, l7, l8⟩ := hl)) <;> simp only [St.done, St.start, St.add, St.alloc] at hv k1 ⊢ <;>
      first | assumption | grind (splits := 20) [upd, P.writes]
  · clear key
    clear i
    cases h <;> (try (rename_i hl; obtain ⟨l1, l2, l3, l4, l5, l6, l7, l8⟩ := hl)) <;> simp only [St.done, St.start, St.add, St.alloc] at hv ⊢ <;>
      first | assumption | grind (splits := 20) [upd, P.writes]

theorem Inv.s_dying {cf : Cfg} (hs : cf.strict = true) {s s' : St} (i : Inv cf s) (h : Tr cf s s') : ∀ o, s'.st o = .dying → ∃ v, s'.vp v = .dst o := by
  intro o ho
  by_cases hd : s.st o = .dying
  · obtain ⟨w, hw⟩ := i.dying o hd
    refine ⟨w, ?_⟩
    have q6 : ∀ v, s.wl v = none → s.dt v = false → s.vp v = .no := fun v => i.locked
    have r4 : ∀ v u, s.vp v = .kll (cf.home u) → s.wl u = none ∧ s.dt u = false ∧ ∀ t, u ∉ s.rd t := fun v u h => i.killed h rfl
    have p5 := i.pasg
    cases h <;> (try (rename_i hl; obtain ⟨l1, l2, l3, l4, l5, l6, l7, l8⟩ := hl)) <;> simp only [St.done, St.start, St.add, St.alloc] at ho ⊢ <;>
      first | assumption | grind (splits := 20) [upd]
  · cases h <;> (try simp only [St.done, St.start, St.add, St.alloc] at ho) <;> try (exact absurd ho hd)
    case new => grind [upd]
    case create => grind [upd]
    case kill v o' h =>
      have : o = o' := by grind [upd]
      subst this
      exact ⟨v, by simp⟩
    case free => grind [upd]

theorem Inv.s_zalive {cf : Cfg} (hs : cf.strict = true) {s s' : St} (i : Inv cf s) (h : Tr cf s s') :
    ∀ o, s'.st o = .alive → s'.cnt o = 0 → (∃ v, s'.vp v = .nulk o ∨ s'.vp v = .kll o) ∨ ∃ t x, s'.pc t = .new x o ∨ s'.pc t = .nadd x o := by
  intro o ho hc
  have n1 : ∀ o v, o ≠ 0 → s.cnt o = 0 → s.own v ≠ o := fun o v => i.noOwn
  have q6 : ∀ v, s.wl v = none → s.dt v = false → s.vp v = .no := fun v => i.locked
  have r1 : ∀ v, s.vp v = .rel → s.ptr v ≠ 0 → s.own v = s.ptr v := fun v => i.relOwn
  have r4 : ∀ v u, s.vp v = .kll (cf.home u) → s.wl u = none ∧ s.dt u = false ∧ ∀ t, u ∉ s.rd t := fun v u h => i.killed h rfl
  have p5 := i.pasg
  have p6 := i.pnadd
  have p7 := i.st0
  have p8 := i.rlive
  by_cases hd : s.st o = .alive ∧ s.cnt o = 0
  · rcases i.zalive o hd.1 hd.2 with ⟨w, hw⟩ | ⟨t0, x0, h0⟩
    · refine .inl ⟨w, ?_⟩
      clear i
      cases h <;> (try (rename_i hl; obtain ⟨l1, l2, l3, l4, l5, l6, l7, l8⟩ := hl)) <;> simp only [St.done, St.start, St.add, St.alloc] at ho hc ⊢ <;>
        first | assumption | grind (splits := 20) [upd]
    · refine .inr ⟨t0, x0, ?_⟩
      clear i
      cases h <;> (try (rename_i hl; obtain ⟨l1, l2, l3, l4, l5, l6, l7, l8⟩ := hl)) <;> simp only [St.done, St.start, St.add, St.alloc] at ho hc ⊢ <;>
        first | assumption | grind (splits := 20) [upd]
  · clear i
    cases h <;> (try simp only [St.done, St.start, St.add, St.alloc] at ho hc ⊢) <;> try (exact absurd (And.intro ho hc) hd)
    case new t x o' R ht h hh hv h0 hs' hl => exact .inr ⟨t, x, by grind [upd]⟩
    case create t x o' R ht h hv h0 hs' hst hl => exact .inr ⟨t, x, by grind [upd]⟩
    case relZero v h hp hc' => exact .inl ⟨v, by grind [upd]⟩
    all_goals grind [upd]
theorem Inv.step {cf : Cfg} (hs : cf.strict = true) {s s' : St} (i : Inv cf s) (h : Tr cf s s') : Inv cf s' :=
  ⟨i.s_cnt hs h, i.s_ownb hs h, i.s_wrb hs h, i.s_pcb hs h, i.s_own hs h, i.s_ptr hs h, i.s_pend hs h, i.s_npend hs h, i.s_pal hs h, i.s_zero hs h, i.s_uniq hs h, i.s_dst hs h, i.s_nptr hs h, i.s_busy hs h, i.s_dtv hs h, i.s_wrd hs h, i.s_rlive hs h, i.s_halive hs h, i.s_guard hs h, i.s_wlp hs h, i.s_pidle hs h, i.s_pcpy hs h, i.s_pcadd hs h, i.s_pnew hs h, i.s_pnadd hs h, i.s_newo hs h, i.s_newz hs h, i.s_newu hs h, i.s_pasg hs h, i.s_paset hs h, i.s_pmset hs h, i.s_pwt hs h, i.s_pwd hs h, i.s_hm hs h, i.s_hd hs h, i.s_dnul hs h, i.s_zalive hs h, i.s_dying hs h, i.s_st0 hs h, i.s_cz hs h, i.s_logn hs h, i.s_logm hs h⟩

theorem Reach.inv {cf : Cfg} (hs : cf.strict = true) {s : St} (h : Reach cf s) : Inv cf s := by
  induction h with
  | init => exact Inv.init cf
  | step _ t ih => exact ih.step hs t
end LS.RefCnt
