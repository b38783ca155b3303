import Verif.Model.StatRace
/-!
Invariants: which members a thread may use, and that receiving has one place at a time.
-/
set_option autoImplicit false
namespace StAsio

/-- What thread `c` may have to do. -/
def SrCfg.allowed (cfg : SrCfg) : SrCtx → SrOp → Bool
  | .conn, .use m _ => m == .establish || m == .pack || m == .lastRecv
  | .conn, .recv => true
  | .conn, .beats => cfg.beats
  | .rw, .use m _ => m == .lastRecv || m == .unpack || m == .recvSums || (m == .pack && cfg.sync) || (m == .handle && cfg.sync) || m == .recvIdle || m == .sendDelay || m == .lastSend || m == .sendSums || m == .sendTime
  | .rw, .dispatch => !cfg.sync || cfg.leaves
  | .rw, .read => true
  | .rw, .pause => true
  | .rw, .write => true
  | .dis, .use m _ => m == .dispDelay || (m == .pack && cfg.replies) || m == .handle
  | .dis, .dispatch => true
  | .dis, .later => true
  | .check, .use m _ => m == .recvIdle
  | .check, .resume => true
  | .beat, .use m w => (m == .lastRecv && !w) || (m == .lastSend && !w) || m == .pack
  | .closer, .use m _ => m == .break_
  | .app _, .use m w => (m == .pack && cfg.app) || (!w && cfg.status)
  | _, _ => false

/-- do_send_msg and send_handler. -/
def SrOp.sendish : SrOp → Bool
  | .use m _ => m == .sendDelay || m == .lastSend || m == .sendSums || m == .sendTime
  | .write => true
  | _ => false

/-- The last item of a chain of receiving. -/
def SrOp.term : SrOp → Bool
  | .recv => true
  | .resume => true
  | .read => true
  | .pause => true
  | _ => false

theorem srOpen_ok (cfg : SrCfg) (n : Nat) : (∀ op ∈ srOpen cfg n, cfg.allowed .conn op = true) ∧ (∀ op ∈ (srOpen cfg n).dropLast, op.term = false) ∧ srOpen cfg n ≠ [] := by
  refine ⟨?_, ?_, by simp [srOpen]⟩
  · intro op h
    simp only [srOpen, List.mem_append, List.mem_cons, List.mem_replicate, List.not_mem_nil, or_false] at h
    cases hb : cfg.beats <;> simp only [hb] at h <;> grind [SrCfg.allowed]
  · intro op h
    rw [srOpen, List.dropLast_concat] at h
    simp only [List.mem_append, List.mem_cons, List.mem_replicate] at h
    cases hb : cfg.beats <;> simp only [hb] at h <;> grind [SrOp.term]

theorem srRecv_ok (cfg : SrCfg) (n : Nat) (l b : Bool) (hl : l = true → cfg.leaves = true) :
    (∀ op ∈ srRecv cfg n l b, cfg.allowed .rw op = true) ∧ (∀ op ∈ (srRecv cfg n l b).dropLast, op.term = false) := by
  constructor
  · intro op h
    simp only [srRecv, List.mem_append, List.mem_cons, List.not_mem_nil, or_false] at h
    cases hs : cfg.sync <;> cases b <;> cases l <;> simp [hs, List.mem_replicate] at h <;> grind [SrCfg.allowed]
  · intro op h
    rw [srRecv, List.dropLast_concat] at h
    simp only [List.mem_append, List.mem_cons, List.not_mem_nil, or_false] at h
    cases hs : cfg.sync <;> cases b <;> cases l <;> simp [hs, List.mem_replicate] at h <;> grind [SrOp.term]

theorem srDis_ok (cfg : SrCfg) (n : Nat) (ok : Bool) (hn : n ≠ 0 → cfg.replies = true) : (∀ op ∈ srDis n ok, cfg.allowed .dis op = true) ∧ (∀ op ∈ srDis n ok, op.term = false) := by
  constructor <;> intro op h <;> simp only [srDis, List.mem_cons, List.mem_append, List.mem_replicate, List.not_mem_nil, or_false] at h <;> cases ok <;> grind [SrCfg.allowed, SrOp.term]

theorem srSent_ok (cfg : SrCfg) (b : Bool) : (∀ op ∈ srSent b, cfg.allowed .rw op = true) ∧ (∀ op ∈ srSent b, op.term = false) ∧ (∀ op ∈ srSent b, op.sendish = true) := by
  refine ⟨?_, ?_, ?_⟩ <;> intro op h <;> cases b <;> simp [srSent] at h <;> grind [SrCfg.allowed, SrOp.term, SrOp.sendish]

theorem dropLast_of_term {op : SrOp} {l : List SrOp} (h : ∀ x ∈ (op :: l).dropLast, x.term = false) : (op.term = true → l = []) ∧ ∀ x ∈ l.dropLast, x.term = false := by
  cases l with
  | nil => simp
  | cons y l =>
    rw [List.dropLast_cons_cons] at h
    refine ⟨fun ht => ?_, fun x hx => h x (List.mem_cons_of_mem _ hx)⟩
    rw [h op List.mem_cons_self] at ht
    cases ht

theorem dropLast_term_of_all {l : List SrOp} (h : ∀ x ∈ l, x.term = false) : ∀ x ∈ l.dropLast, x.term = false := fun x hx => h x (List.dropLast_subset l hx)

structure Smr.Inv (cfg : SrCfg) (s : Smr) : Prop where
  ok : ∀ c, ∀ op ∈ s.pc c, cfg.allowed c op = true
  ends : ∀ c, ∀ op ∈ (s.pc c).dropLast, op.term = false
  rw : ∀ op ∈ s.pc .rw, op.sendish = false → s.reading = false ∧ s.recvPend = false ∧ s.checkTm = false ∧ s.pc .conn = []
  reading : s.reading = true → s.recvPend = false ∧ s.checkTm = false ∧ s.pc .conn = []
  pend : s.recvPend = true → s.checkTm = false ∧ s.pc .conn = []
  tm : s.checkTm = true → s.pc .conn = []
  check : s.pc .check ≠ [] → s.checkTm = true
  dis : s.pc .conn ≠ [] → s.disPend = 0 ∧ s.disTm = false ∧ s.pc .dis = []
  closed : s.opened = false → s.reading = false ∧ s.recvPend = false ∧ s.checkTm = false ∧ s.disPend = 0 ∧ s.disTm = false ∧ s.pc .rw = [] ∧ s.pc .dis = [] ∧ s.pc .conn = [] ∧ s.writing = false
  none : cfg.sync = true → cfg.leaves = false → s.disPend = 0 ∧ s.disTm = false ∧ s.pc .dis = []
  beats : cfg.beats = false → s.beatTm = false ∧ s.pc .beat = []

theorem Smr.inv_init (cfg : SrCfg) : Smr.init.Inv cfg := by constructor <;> simp [Smr.init]

theorem Smr.inv_next {cfg : SrCfg} {s t : Smr} {c : SrCtx} (h : s.Inv cfg) (hs : s.step cfg (.next c) = some t) : t.Inv cfg := by
  simp only [Smr.step] at hs
  split at hs
  · cases hs
  · rename_i op l hl
    simp only [Option.some.injEq] at hs
    have hok := h.ok c op (by rw [hl]; exact List.mem_cons_self)
    have hd := h.ends c
    rw [hl] at hd
    obtain ⟨d1, d2⟩ := dropLast_of_term hd
    have e1 : ∀ d, (s.put c l).pc d = if d = c then l else s.pc d := fun _ => rfl
    have e2 : ∀ d, t.pc d = if d = c then l else s.pc d := by
      intro d; rw [← hs]; cases op <;> rfl
    have hok' : ∀ d, ∀ x ∈ t.pc d, cfg.allowed d x = true := by
      intro d x hx
      rw [e2] at hx
      split at hx
      · rename_i e; rw [e]; exact h.ok c x (by rw [hl]; exact List.mem_cons_of_mem _ hx)
      · exact h.ok d x hx
    have hends : ∀ d, ∀ x ∈ (t.pc d).dropLast, x.term = false := by
      intro d x hx
      rw [e2] at hx
      split at hx
      · exact d2 x hx
      · exact h.ends d x hx
    obtain ⟨k1, k2, k3, k4, k5, k6, k7, k8, k9, k10, k11⟩ := h
    have hmem : op ∈ s.pc c := by rw [hl]; exact List.mem_cons_self
    have hsub : ∀ x ∈ l, x ∈ s.pc c := fun x hx => by rw [hl]; exact List.mem_cons_of_mem _ hx
    have k10' : cfg.allowed .rw .dispatch = true → ¬ (cfg.sync = true ∧ cfg.leaves = false) := by simp [SrCfg.allowed]; grind
    have f1 := e2 .conn
    have f2 := e2 .rw
    have f3 := e2 .dis
    have f4 := e2 .check
    have f5 := e2 .beat
    cases c <;> cases op <;> simp only [SrCfg.allowed, Bool.false_eq_true] at hok <;> simp only [SrOp.term, Smr.eff, Smr.put] at d1 hs <;>
      simp only [reduceCtorEq, if_false, if_true] at f1 f2 f3 f4 f5 <;> refine ⟨hok', hends, ?_, ?_, ?_, ?_, ?_, ?_, ?_, ?_, ?_⟩ <;> grind [SrOp.sendish]

theorem Smr.inv_step {cfg : SrCfg} {s t : Smr} {a : SrAct} (h : s.Inv cfg) (hs : s.step cfg a = some t) : t.Inv cfg := by
  have put_ok : ∀ (c : SrCtx) (l : List SrOp), (∀ op ∈ l, cfg.allowed c op = true) → ∀ d, ∀ x ∈ (s.put c l).pc d, cfg.allowed d x = true := by
    intro c l hl d x hx
    simp only [Smr.put] at hx
    split at hx
    · rename_i e; rw [e]; exact hl x hx
    · exact h.ok d x hx
  have put_ends : ∀ (c : SrCtx) (l : List SrOp), (∀ op ∈ l.dropLast, op.term = false) → ∀ d, ∀ x ∈ ((s.put c l).pc d).dropLast, x.term = false := by
    intro c l hl d x hx
    simp only [Smr.put] at hx
    split at hx
    · exact hl x hx
    · exact h.ends d x hx
  obtain ⟨k1, k2, k3, k4, k5, k6, k7, k8, k9, k10, k11⟩ := h
  cases a with
  | next c => exact Smr.inv_next ⟨k1, k2, k3, k4, k5, k6, k7, k8, k9, k10, k11⟩ hs
  | open_ n =>
    simp only [Smr.step] at hs
    split at hs
    · simp only [Option.some.injEq] at hs
      subst hs
      obtain ⟨o1, o2, o3⟩ := srOpen_ok cfg n
      refine ⟨put_ok _ _ o1, put_ends _ _ o2, ?_, ?_, ?_, ?_, ?_, ?_, ?_, ?_, ?_⟩ <;> simp only [Smr.put, reduceCtorEq, if_false, if_true] <;> grind
    · cases hs
  | recvTask =>
    simp only [Smr.step] at hs
    split at hs
    · simp only [Option.some.injEq] at hs
      subst hs
      refine ⟨put_ok _ _ (by simp [SrCfg.allowed]), put_ends _ _ (by simp [SrOp.term]), ?_, ?_, ?_, ?_, ?_, ?_, ?_, ?_, ?_⟩ <;> simp only [Smr.put, reduceCtorEq, if_false, if_true] <;> grind
    · cases hs
  | part =>
    simp only [Smr.step] at hs
    split at hs
    · simp only [Option.some.injEq] at hs
      subst hs
      refine ⟨put_ok _ _ (by simp [SrCfg.allowed]), put_ends _ _ (by simp [SrOp.term]), ?_, ?_, ?_, ?_, ?_, ?_, ?_, ?_, ?_⟩ <;> simp only [Smr.put, reduceCtorEq, if_false, if_true] <;> grind
    · cases hs
  | recv n l b =>
    simp only [Smr.step] at hs
    split at hs
    · rename_i hg
      simp only [Option.some.injEq] at hs
      subst hs
      obtain ⟨o1, o2⟩ := srRecv_ok cfg n l b hg.2.2
      refine ⟨put_ok _ _ o1, put_ends _ _ o2, ?_, ?_, ?_, ?_, ?_, ?_, ?_, ?_, ?_⟩ <;> simp only [Smr.put, reduceCtorEq, if_false, if_true] <;> grind
    · cases hs
  | recvFail =>
    clear put_ok put_ends
    simp only [Smr.step] at hs
    split at hs
    · simp only [Option.some.injEq] at hs
      subst hs
      refine ⟨k1, k2, ?_, ?_, ?_, ?_, ?_, ?_, ?_, ?_, ?_⟩ <;> grind
    · cases hs
  | sendTask =>
    simp only [Smr.step] at hs
    split at hs
    · simp only [Option.some.injEq] at hs
      subst hs
      refine ⟨put_ok _ _ (by simp [SrCfg.allowed]), put_ends _ _ (by simp [SrOp.term]), ?_, ?_, ?_, ?_, ?_, ?_, ?_, ?_, ?_⟩ <;> simp only [Smr.put, reduceCtorEq, if_false, if_true] <;> grind [SrOp.sendish]
    · cases hs
  | sent b =>
    simp only [Smr.step] at hs
    split at hs
    · simp only [Option.some.injEq] at hs
      subst hs
      obtain ⟨o1, o2, o3⟩ := srSent_ok cfg b
      refine ⟨put_ok _ _ o1, put_ends _ _ (dropLast_term_of_all o2), ?_, ?_, ?_, ?_, ?_, ?_, ?_, ?_, ?_⟩ <;> simp only [Smr.put, reduceCtorEq, if_false, if_true] <;> grind [SrOp.sendish]
    · cases hs
  | sentFail =>
    clear put_ok put_ends
    simp only [Smr.step] at hs
    split at hs
    · simp only [Option.some.injEq] at hs
      subst hs
      refine ⟨k1, k2, ?_, ?_, ?_, ?_, ?_, ?_, ?_, ?_, ?_⟩ <;> grind
    · cases hs
  | dis n ok =>
    simp only [Smr.step] at hs
    split at hs
    · rename_i hg
      simp only [Option.some.injEq] at hs
      subst hs
      obtain ⟨o1, o2⟩ := srDis_ok cfg n ok hg.2.2
      refine ⟨put_ok _ _ o1, put_ends _ _ (dropLast_term_of_all o2), ?_, ?_, ?_, ?_, ?_, ?_, ?_, ?_, ?_⟩ <;> simp only [Smr.put, reduceCtorEq, if_false, if_true] <;> grind
    · cases hs
  | disTimer =>
    clear put_ok put_ends
    simp only [Smr.step] at hs
    split at hs
    · simp only [Option.some.injEq] at hs
      subst hs
      refine ⟨k1, k2, ?_, ?_, ?_, ?_, ?_, ?_, ?_, ?_, ?_⟩ <;> grind
    · cases hs
  | tick b =>
    simp only [Smr.step] at hs
    split at hs
    · simp only [Option.some.injEq] at hs
      subst hs
      refine ⟨put_ok _ _ (by cases b <;> simp [SrCfg.allowed]), put_ends _ _ (by cases b <;> simp [SrOp.term]), ?_, ?_, ?_, ?_, ?_, ?_, ?_, ?_, ?_⟩ <;> simp only [Smr.put, reduceCtorEq, if_false, if_true] <;> grind
    · cases hs
  | beat =>
    simp only [Smr.step] at hs
    split at hs
    · simp only [Option.some.injEq] at hs
      subst hs
      refine ⟨put_ok _ _ (by simp [SrCfg.allowed]), put_ends _ _ (by simp [SrOp.term]), ?_, ?_, ?_, ?_, ?_, ?_, ?_, ?_, ?_⟩ <;> simp only [Smr.put, reduceCtorEq, if_false, if_true] <;> grind
    · cases hs
  | appSend i =>
    simp only [Smr.step] at hs
    split at hs
    · rename_i hg
      simp only [Option.some.injEq] at hs
      subst hs
      refine ⟨put_ok _ _ (by simp [SrCfg.allowed, hg.1]), put_ends _ _ (by simp [SrOp.term]), ?_, ?_, ?_, ?_, ?_, ?_, ?_, ?_, ?_⟩ <;> simp only [Smr.put, reduceCtorEq, if_false, if_true] <;> grind
    · cases hs
  | appStat i m =>
    simp only [Smr.step] at hs
    split at hs
    · rename_i hg
      simp only [Option.some.injEq] at hs
      subst hs
      refine ⟨put_ok _ _ (by simp [SrCfg.allowed, hg.1]), put_ends _ _ (by simp [SrOp.term]), ?_, ?_, ?_, ?_, ?_, ?_, ?_, ?_, ?_⟩ <;> simp only [Smr.put, reduceCtorEq, if_false, if_true] <;> grind
    · cases hs
  | close =>
    simp only [Smr.step] at hs
    split at hs
    · simp only [Option.some.injEq] at hs
      subst hs
      refine ⟨put_ok _ _ (by simp [SrCfg.allowed]), put_ends _ _ (by simp [SrOp.term]), ?_, ?_, ?_, ?_, ?_, ?_, ?_, ?_, ?_⟩ <;> simp only [Smr.put, reduceCtorEq, if_false, if_true] <;> grind
    · cases hs
  | cancel =>
    clear put_ok put_ends
    simp only [Smr.step] at hs
    split at hs
    · simp only [Option.some.injEq] at hs
      subst hs
      refine ⟨k1, k2, ?_, ?_, ?_, ?_, ?_, ?_, ?_, ?_, ?_⟩ <;> grind
    · cases hs
  | over =>
    clear put_ok put_ends
    simp only [Smr.step] at hs
    split at hs
    · simp only [Option.some.injEq] at hs
      subst hs
      refine ⟨k1, k2, ?_, ?_, ?_, ?_, ?_, ?_, ?_, ?_, ?_⟩ <;> grind
    · cases hs

theorem Smr.inv {cfg : SrCfg} {s : Smr} (h : Smr.Reach cfg s) : s.Inv cfg := by
  induction h with
  | init => exact Smr.inv_init cfg
  | step a _ hs ih => exact Smr.inv_step ih hs

theorem Smr.exec_reach {cfg : SrCfg} {s t : Smr} {as : List SrAct} (hr : Smr.Reach cfg s) (h : s.exec cfg as = some t) : Smr.Reach cfg t := by
  induction as generalizing s with
  | nil => simp only [Smr.exec, Option.some.injEq] at h; exact h ▸ hr
  | cons a as ih =>
    simp only [Smr.exec, Option.bind_eq_some_iff] at h
    obtain ⟨u, h1, h2⟩ := h
    exact ih (.step a hr h1) h2

theorem Smr.use_mem {s : Smr} {c : SrCtx} {m : SrMember} {w : Bool} (h : s.use c = some (m, w)) : .use m w ∈ s.pc c := by
  simp only [Smr.use] at h
  split at h
  · rename_i e; rw [e]; simp only [Option.some.injEq, Prod.mk.injEq] at h; rw [h.1, h.2]; exact List.mem_cons_self
  · cases h

end StAsio
