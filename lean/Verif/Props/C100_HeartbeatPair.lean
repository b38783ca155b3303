import Verif.Lemmas.HeartbeatPair2
/-!
C100: a TCP link with heartbeats at both ends stays up as long as the network works, and silence is reported in time (include/socket.h, include/timer.h, include/tcp/socket.h).
-/
set_option autoImplicit false
namespace StAsio

/-- **C100** (healthy links stay up): the network works, call backs of timers are at most `J`, writes at most `W` and the network at most `L` ms late, and interval * max_absence of each end exceeds the peer's longest gap and the delay of
the network by a second: then on_heartbeat_error is never called, whatever the applications send and when. -/
theorem C100_stays_up {c : KSide → HbCfg} {k : KTime} (hc : ∀ e, KSettings (c e)) (ht : ∀ e, Tolerant (c e) (c e.other) k) {t : KSide → Nat} (h1 : ∀ e, 1000 ≤ t e) (h2 : ∀ e, 1000 * (c e).interval ≤ t e)
    {as : List KlAct} {s : KLink} {es : List KEv} (hr : KLink.Run c k (KLink.init t) as s es) (hw : NetworkWorks as) : ∀ e, KEv.timeout e ∉ es :=
  (KLink.good_run hc ht (KLink.good_init h1 h2) hw hr).2

/-- **C100** (the default): both ends have the same interval and max_absence is at least 3 (ST_ASIO_HEARTBEAT_MAX_ABSENCE, config.h:1279): the delays together must be a second less than an interval. -/
theorem C100_stays_up_default {n m : Nat} (hn : 0 < n) (hm : 3 ≤ m) (hf : n * m < 2 ^ 31) {k : KTime} (hd : k.J + max k.W k.L + k.L + 1000 ≤ 1000 * n) {t : KSide → Nat} (h2 : ∀ e, 1000 * n ≤ t e)
    {as : List KlAct} {s : KLink} {es : List KEv} (hr : KLink.Run (fun _ => { kind := .tcp, interval := n, maxAbsence := m, always := false }) k (KLink.init t) as s es) (hw : NetworkWorks as) : ∀ e, KEv.timeout e ∉ es := by
  refine C100_stays_up (fun _ => ⟨rfl, hn, by show 0 < m; omega, hf⟩) (fun _ => ?_) (fun e => Nat.le_trans (by omega) (h2 e)) h2 hr hw
  have h3 : n * 3 ≤ n * m := Nat.mul_le_mul_left n hm
  show 2 * (1000 * n) + k.J + max k.W k.L + k.L + 1000 ≤ 1000 * (n * m)
  omega

/-- **C100** (silence is reported): an end that has not received anything for more than interval * (max_absence + 1) seconds and the delay of a call back has called on_heartbeat_error, exactly once; the network may fail at any time. -/
theorem C100_noticed {c : KSide → HbCfg} {k : KTime} (hc : ∀ e, KSettings (c e)) {t : KSide → Nat} (h1 : ∀ e, 1000 ≤ t e) {as : List KlAct} {s : KLink} {es : List KEv}
    (hr : KLink.Run c k (KLink.init t) as s es) (e : KSide) {d : Nat} (hd : heardAgo e as = some d) (hlong : 1000 * ((c e).interval * ((c e).maxAbsence + 1)) + k.J < d) : es.count (.timeout e) = 1 := by
  obtain ⟨g1, g2, g3⟩ := KLink.told_run hc hr e
  rw [hd] at g1
  have hb : (s.get e).begun = true := g1
  rw [g3]
  refine if_pos ⟨hb, ?_⟩
  cases hrd : (s.get e).hb.ready with
  | false => rfl
  | true =>
    obtain ⟨_, d', e1, e2, e3, e4, e5, e6⟩ := (KLink.watches_run hc h1 hr e).2 hrd
    rw [hd] at e1
    cases e1
    rw [Nat.mul_add, Nat.mul_one] at hlong
    exfalso
    omega

/-- **C100** (once): on_heartbeat_error is called at most once by each end of a connection. -/
theorem C100_once {c : KSide → HbCfg} {k : KTime} (hc : ∀ e, KSettings (c e)) {t : KSide → Nat} {as : List KlAct} {s : KLink} {es : List KEv} (hr : KLink.Run c k (KLink.init t) as s es) (e : KSide) :
    es.count (.timeout e) ≤ 1 := by
  rw [(KLink.told_run hc hr e).2.2]
  split <;> omega

/-- **C100** (the assumptions about delays can always be met): from every state any time can pass, on a network that is not cut in the meantime. -/
theorem C100_time_goes_on {c : KSide → HbCfg} {k : KTime} (hc : ∀ e, KSettings (c e)) (hw : 0 < k.W) (s : KLink) (n : Nat) : ∃ as s' es, KLink.Run c k s as s' es ∧ passed as = n ∧ NetworkWorks as := by
  have h : ∃ s', KLink.Leads c k n s s' := by
    induction n with
    | zero => exact ⟨s, .refl s⟩
    | succ n ih =>
      obtain ⟨s1, h1⟩ := ih
      obtain ⟨s2, h2⟩ := KLink.goes_on hc hw s1
      exact ⟨s2, h1.trans h2⟩
  obtain ⟨s', as, es, h1, h2, h3⟩ := h
  exact ⟨as, s', es, h1, h2, h3⟩

/-- A link whose two ends are not tolerant enough: max_absence 2. -/
def tightAbsence : KSide → HbCfg := fun _ => { kind := .tcp, interval := 5, maxAbsence := 2, always := false }

/-- The shortest interval, with the default max_absence. -/
def tightInterval : KSide → HbCfg := fun _ => { kind := .tcp, interval := 1, maxAbsence := 3, always := false }

/-- All delays are at most 10 ms. -/
def fastNet : KTime := { J := 10, L := 10, W := 10 }

/-- The clocks of the two ends differ by 999 ms. -/
def clocks : KSide → Nat
  | .a => 1000999
  | .b => 1000000

/-- With max_absence 2 a healthy link with delays of at most 10 ms is shut down: a message which `b` sent a second after a check makes the next check pass without a heartbeat, and the next but one comes too late. -/
theorem C100_fails_absence : (∀ e, KSettings (tightAbsence e)) ∧ ∃ as s es, KLink.Run tightAbsence fastNet (KLink.init clocks) as s es ∧ NetworkWorks as ∧ KEv.timeout .a ∈ es := by
  refine ⟨fun e => by cases e <;> exact ⟨rfl, by decide, by decide, by decide⟩, ?_⟩
  have e : (KLink.exec tightAbsence fastNet (KLink.init clocks)
    [.start .a 1, .start .b 5000, .pass 1, .check .a, .recv .b, .sent .a, .pass 4999, .check .b, .recv .a, .sent .b, .pass 1, .check .a, .recv .b, .sent .a, .pass 999, .send .b, .recv .a, .sent .b, .pass 4000, .check .b,
     .pass 1, .check .a, .recv .b, .sent .a, .pass 5000, .check .a]).map (fun r => r.2) = some [.beat .a, .beat .b, .beat .a, .beat .a, .timeout .a] := by decide +kernel
  rw [Option.map_eq_some_iff] at e
  obtain ⟨⟨s, es⟩, e1, e2⟩ := e
  refine ⟨_, s, es, KLink.exec_run e1, by simp [NetworkWorks], ?_⟩
  simp only at e2
  rw [e2]
  simp

/-- The default max_absence does not do for an interval of one second either. -/
theorem C100_fails_interval : (∀ e, KSettings (tightInterval e)) ∧ ∃ as s es, KLink.Run tightInterval fastNet (KLink.init clocks) as s es ∧ NetworkWorks as ∧ KEv.timeout .a ∈ es := by
  refine ⟨fun e => by cases e <;> exact ⟨rfl, by decide, by decide, by decide⟩, ?_⟩
  have e : (KLink.exec tightInterval fastNet (KLink.init clocks)
    [.start .a 1, .start .b 999, .pass 1, .check .a, .recv .b, .sent .a, .pass 998, .check .b, .recv .a, .sent .b, .pass 2, .check .a, .recv .b, .sent .a, .pass 998, .check .b, .recv .a, .sent .b, .pass 1, .send .b, .recv .a, .sent .b,
     .pass 1, .check .a, .recv .b, .sent .a, .pass 998, .check .b, .pass 2, .check .a, .recv .b, .sent .a, .pass 1000, .check .a]).map (fun r => r.2) =
    some [.beat .a, .beat .b, .beat .a, .beat .b, .beat .a, .beat .a, .timeout .a] := by decide +kernel
  rw [Option.map_eq_some_iff] at e
  obtain ⟨⟨s, es⟩, e1, e2⟩ := e
  refine ⟨_, s, es, KLink.exec_run e1, by simp [NetworkWorks], ?_⟩
  simp only at e2
  rw [e2]
  simp

/-! ### the hypotheses can be met -/

/-- The settings of the demos client (client/client.cpp:20) and echo_server (echo_server/echo_server.cpp:182). -/
def demoHeartbeats : KSide → HbCfg := fun _ => { kind := .tcp, interval := 5, maxAbsence := 3, always := false }

/-- The settings of the demos client and echo_server (interval 5, max_absence 3) tolerate this network; a link with heartbeats in both directions, and after the network died both ends report it. -/
theorem C100_demo : (∀ e, Tolerant (demoHeartbeats e) (demoHeartbeats e.other) fastNet) ∧
    ∃ as s, KLink.Run demoHeartbeats fastNet (KLink.init clocks) as s [.beat .b, .beat .b, .beat .a, .timeout .a, .timeout .b] ∧
      heardAgo .a as = some 15000 ∧ heardAgo .b as = some 15000 := by
  refine ⟨fun e => by cases e <;> (unfold Tolerant longestGap; decide), ?_⟩
  have e : (KLink.exec demoHeartbeats fastNet (KLink.init clocks)
    [.start .a 5000, .start .b 5000, .send .a, .pass 5, .recv .b, .sent .a, .pass 4995, .send .a, .check .a, .check .b, .recv .b, .recv .a, .pass 3, .sent .a, .sent .b, .cut, .pass 4997, .check .a, .check .b, .pass 5000, .check .a, .check .b, .pass 5000,
     .check .a, .check .b]).map (fun r => r.2) = some [.beat .b, .beat .b, .beat .a, .timeout .a, .timeout .b] := by decide +kernel
  rw [Option.map_eq_some_iff] at e
  obtain ⟨⟨s, es⟩, e1, e2⟩ := e
  simp only at e2
  subst e2
  exact ⟨_, s, KLink.exec_run e1, by decide, by decide⟩

end StAsio
