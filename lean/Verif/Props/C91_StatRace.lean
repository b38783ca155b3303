import Verif.Lemmas.StatRace
/-!
C91 "In st_asio_wrapper, it's thread safe to access stat without mutex, because for a specific member of stat, st_asio_wrapper will never access it concurrently." (socket.h:230)

True of nine members in every program, of the other four under conditions only. Nobody outside of the library reads the statistic here (`status = false`; the comment itself excludes it).
-/
set_option autoImplicit false
namespace StAsio

/-- Number and bytes of messages sent and received, the delays and times of sending, dispatching and unpacking, the idle time of receiving, the times of establishment and of the break: no two threads are ever at the same one of them
while one of them changes it, whatever the schedule, the dispatching mode and the program. -/
theorem C91_safe_partial {cfg : SrCfg} {s : Smr} (h : Smr.Reach cfg s) (hst : cfg.status = false) (m : SrMember)
    (hm : m = .establish ∨ m = .break_ ∨ m = .sendSums ∨ m = .sendDelay ∨ m = .sendTime ∨ m = .recvSums ∨ m = .dispDelay ∨ m = .recvIdle ∨ m = .unpack) : ¬ StatOverlap s.use m := by
  obtain ⟨k1, k2, k3, k4, k5, k6, k7, k8, k9, k10, k11⟩ := Smr.inv h
  rintro ⟨t, t', w, hne, hu, hu'⟩
  have m1 := Smr.use_mem hu
  have m2 := Smr.use_mem hu'
  have a1 := k1 t _ m1
  have a2 := k1 t' _ m2
  have r1 := k3 (.use .recvIdle true)
  have r2 := k3 (.use .recvIdle w)
  have nc : ∀ op, op ∈ s.pc .check → s.checkTm = true := fun op hop => k7 (List.ne_nil_of_mem hop)
  rcases hm with rfl | rfl | rfl | rfl | rfl | rfl | rfl | rfl | rfl <;> cases t <;> cases t' <;> simp [SrCfg.allowed, hst] at a1 a2 hne <;> grind [SrOp.sendish]

/-- The time of handling: unless on_msg (ST_ASIO_SYNC_DISPATCH) leaves messages to on_msg_handle. -/
theorem C91_handle_partial {cfg : SrCfg} {s : Smr} (h : Smr.Reach cfg s) (hst : cfg.status = false) (hl : cfg.sync = true → cfg.leaves = false) : ¬ StatOverlap s.use .handle := by
  obtain ⟨k1, k2, k3, k4, k5, k6, k7, k8, k9, k10, k11⟩ := Smr.inv h
  rintro ⟨t, t', w, hne, hu, hu'⟩
  have m1 := Smr.use_mem hu
  have m2 := Smr.use_mem hu'
  have a1 := k1 t _ m1
  have a2 := k1 t' _ m2
  cases t <;> cases t' <;> simp [SrCfg.allowed, hst] at a1 a2 hne <;> grind

/-- The times of the last reception and of the last transmission: unless heartbeats are on. -/
theorem C91_last_partial {cfg : SrCfg} {s : Smr} (h : Smr.Reach cfg s) (hst : cfg.status = false) (hb : cfg.beats = false) : ¬ StatOverlap s.use .lastRecv ∧ ¬ StatOverlap s.use .lastSend := by
  obtain ⟨k1, k2, k3, k4, k5, k6, k7, k8, k9, k10, k11⟩ := Smr.inv h
  have hbt := (k11 hb).2
  constructor <;> rintro ⟨t, t', w, hne, hu, hu'⟩ <;> have m1 := Smr.use_mem hu <;> have m2 := Smr.use_mem hu' <;> have a1 := k1 t _ m1 <;> have a2 := k1 t' _ m2
  · have r1 := k3 (.use .lastRecv true)
    have r2 := k3 (.use .lastRecv w)
    cases t <;> cases t' <;> simp [SrCfg.allowed, hst] at a1 a2 hne <;> grind [SrOp.sendish]
  · cases t <;> cases t' <;> simp [SrCfg.allowed, hst] at a1 a2 hne <;> grind

/-- The time of packing: if no other thread sends, heartbeats are off, and not both on_msg and on_msg_handle may send. -/
theorem C91_pack_partial {cfg : SrCfg} {s : Smr} (h : Smr.Reach cfg s) (hst : cfg.status = false) (ha : cfg.app = false) (hb : cfg.beats = false) (hr : cfg.sync = true → cfg.leaves = false ∨ cfg.replies = false) :
    ¬ StatOverlap s.use .pack := by
  obtain ⟨k1, k2, k3, k4, k5, k6, k7, k8, k9, k10, k11⟩ := Smr.inv h
  have hbt := (k11 hb).2
  rintro ⟨t, t', w, hne, hu, hu'⟩
  have m1 := Smr.use_mem hu
  have m2 := Smr.use_mem hu'
  have a1 := k1 t _ m1
  have a2 := k1 t' _ m2
  have r1 := k3 (.use .pack true)
  have r2 := k3 (.use .pack w)
  have nd : ∀ op, op ∈ s.pc .conn → s.pc .dis = [] := fun op hop => (k8 (List.ne_nil_of_mem hop)).2.2
  cases t <;> cases t' <;> simp [SrCfg.allowed, hst, ha] at a1 a2 hne <;> grind [SrOp.sendish]

/-- The defaults, nobody else sends. -/
def srQuiet : SrCfg := { sync := false, leaves := false, replies := true, app := false, beats := false, status := false }

private theorem sr_witness {cfg : SrCfg} (as : List SrAct) (m : SrMember) (t t' : SrCtx) (w : Bool) (hne : t ≠ t')
    (h : (Smr.exec cfg Smr.init as).map (fun s => (s.use t, s.use t')) = some (some (m, true), some (m, w))) : ∃ s, Smr.Reach cfg s ∧ StatOverlap s.use m := by
  rw [Option.map_eq_some_iff] at h
  obtain ⟨s, h1, h2⟩ := h
  simp only [Prod.mk.injEq] at h2
  exact ⟨s, Smr.exec_reach .init h1, t, t', w, hne, h2.1, h2.2⟩

/-- Two threads that send add to pack_time_sum at the same time. -/
theorem C91_fails_pack : ∃ s, Smr.Reach { srQuiet with app := true } s ∧ StatOverlap s.use .pack :=
  sr_witness [.open_ 0, .appSend 0, .appSend 1] .pack (.app 0) (.app 1) true (by decide) (by decide)

/-- So do on_msg_handle and the heartbeat timer, when nobody else sends. -/
theorem C91_fails_pack_beat : ∃ s, Smr.Reach { srQuiet with beats := true } s ∧ StatOverlap s.use .pack :=
  sr_witness [.open_ 0, .next .conn, .next .conn, .next .conn, .next .conn, .recvTask, .next .rw, .next .rw, .recv 0 false true, .next .rw, .next .rw, .next .rw, .next .rw, .dis 1 true, .next .dis, .beat, .next .beat, .next .beat]
    .pack .dis .beat true (by decide) (by decide)

/-- With ST_ASIO_SYNC_DISPATCH, on_msg that leaves messages: rw_strand and dis_strand add to handle_time_sum at the same time. -/
theorem C91_fails_handle : ∃ s, Smr.Reach { srQuiet with sync := true, leaves := true } s ∧ StatOverlap s.use .handle :=
  sr_witness [.open_ 0, .next .conn, .next .conn, .next .conn, .recvTask, .next .rw, .next .rw, .recv 0 true true, .next .rw, .next .rw, .next .rw, .next .rw, .next .rw, .next .rw, .next .rw, .next .rw, .dis 0 true, .next .dis, .recv 0 true true, .next .rw,
    .next .rw, .next .rw] .handle .rw .dis true (by decide) (by decide)

/-- With heartbeats, check_heartbeat reads the times of the last reception and of the last transmission while rw_strand changes them. -/
theorem C91_fails_last : (∃ s, Smr.Reach { srQuiet with beats := true } s ∧ StatOverlap s.use .lastRecv) ∧ ∃ s, Smr.Reach { srQuiet with beats := true } s ∧ StatOverlap s.use .lastSend :=
  ⟨sr_witness [.open_ 0, .next .conn, .next .conn, .next .conn, .next .conn, .recvTask, .next .rw, .next .rw, .recv 0 false true, .beat] .lastRecv .rw .beat false (by decide) (by decide),
   sr_witness [.open_ 0, .next .conn, .next .conn, .next .conn, .next .conn, .sendTask, .next .rw, .next .rw, .sent false, .beat, .next .beat] .lastSend .rw .beat false (by decide) (by decide)⟩

/-- The theorems apply: a message comes and pauses receiving, on_msg_handle answers it while the timer resumes receiving; dis_strand is packing, the timer is at the idle time. -/
example : ∃ s, Smr.Reach srQuiet s ∧ s.use .dis = some (.pack, true) ∧ s.use .check = some (.recvIdle, true) ∧ ¬ StatOverlap s.use .pack ∧ ¬ StatOverlap s.use .recvIdle := by
  have h : (Smr.exec srQuiet Smr.init [.open_ 1, .next .conn, .next .conn, .next .conn, .next .conn, .recvTask, .next .rw, .next .rw, .recv 0 false false, .next .rw, .next .rw, .next .rw, .next .rw, .next .rw, .next .rw, .dis 1 true, .next .dis,
      .tick true]).map (fun s => (s.use .dis, s.use .check)) = some (some (.pack, true), some (.recvIdle, true)) := by decide
  rw [Option.map_eq_some_iff] at h
  obtain ⟨s, h1, h2⟩ := h
  simp only [Prod.mk.injEq] at h2
  have hr := Smr.exec_reach .init h1
  exact ⟨s, hr, h2.1, h2.2, C91_pack_partial hr rfl rfl rfl (fun h => by cases h), C91_safe_partial hr rfl .recvIdle (by simp)⟩

end StAsio
