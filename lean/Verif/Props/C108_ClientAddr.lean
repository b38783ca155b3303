import Verif.Lemmas.ClientAddr
/-!
# C108: from where and to where a TCP client connects

`nd`: asserts are compiled out; `v6`: ST_ASIO_TCP_DEFAULT_IP_VERSION; `need`: ST_ASIO_RECONNECT; `server`: the server's address the client was made with. `Ca.Run nd v6 (Ca.init need server) as s es`: the actions `as` of program, library, kernel and
network, in any order, lead to `s`, and `es` tells which addresses the program set, from where and to where the client tried to connect, and what became of it (Spec/ClientAddr.lean).
-/
set_option autoImplicit false
namespace StAsio

/-- No local address. -/
def noEp : Ep := { v6 := false, ip := none, port := 0 }

/-- C108, the addresses: in every history every attempt to connect goes to the server's address set last; the first attempt after a start comes from the local address set last before the start, every further one from that set last before the attempt;
if the local address is unspecified the kernel chooses. -/
theorem C108_addresses {nd v6 need : Bool} {server : Ep} {as : List CaAct} {s : Ca} {es : List CaEv} (hr : Ca.Run nd v6 (Ca.init need server) as s es) :
    ∃ m, caRight v6 { server := server, here := noEp, atStart := noEp, again := false } es = some m ∧ m.server = s.server ∧ m.here = s.here := by
  obtain ⟨m, hm, hi⟩ := Ca.inv_run hr
  exact ⟨m, hm, hi.server, hi.here⟩

/-- C108, what a call of set_server_addr or set_local_addr does: it returns true and sets what was asked for, or it returns false, the text is not an address, and nothing changes. Without NDEBUG the latter ends the program. -/
theorem C108_set (nd v6 : Bool) (port : Nat) (ip : IpText) (old : Ep) :
    (∀ e, setAddr nd v6 port ip old = some (true, e) ↔ wantedEp v6 port ip = some e) ∧ (∀ e, setAddr nd v6 port ip old = some (false, e) ↔ ip = .wrong ∧ nd = true ∧ e = old) ∧ (setAddr nd v6 port ip old = none ↔ ip = .wrong ∧ nd = false) := by
  cases ip with
  | empty => simp [setAddr, wantedEp]
  | addr v a => simp [setAddr, wantedEp]
  | wrong => cases nd <;> simp [setAddr, wantedEp, eq_comm]

/-- Connections made. -/
def caMade (es : List CaEv) : Nat := (es.filter (· == .cli .connected)).length

/-- Attempts to connect. -/
def caTried (es : List CaEv) : Nat := (es.filter fun e => match e with | .connect _ _ => true | _ => false).length

theorem Cli.made_step {s c : Cli} {a : CliAct} {es : List CliEv} (h : s.step a = some (c, es)) :
    (es.filter (· == .connected)).length + (if c.op = .connecting then 1 else 0) ≤ attempts es + (if s.op = .connecting then 1 else 0) ∧ attempts es ≤ 1 := by
  cases a <;> simp only [Cli.step, Cli.start, Cli.forceShutdown, Cli.gracefulShutdown, Cli.shutdown, Cli.close] at h <;> (repeat' split at h) <;> cases h <;>
    simp_all [attempts] <;> (try (cases hop : s.op <;> simp_all [CliOp.noTimer]))

theorem caTried_map (es : List CliEv) : caTried (es.map .cli) = 0 := by
  induction es with
  | nil => rfl
  | cons e es ih => simpa [caTried] using ih

theorem caMade_map (es : List CliEv) : caMade (es.map .cli) = (es.filter (· == .connected)).length := by
  induction es with
  | nil => rfl
  | cons e es ih =>
    simp only [caMade, List.map_cons, List.filter_cons] at ih ⊢
    cases e <;> simpa using ih

/-- Every connection that was made had been tried before, so C108_addresses tells its addresses: there are no more connections than attempts, and none without its own. -/
theorem C108_connected {nd v6 need : Bool} {server : Ep} {as : List CaAct} {s : Ca} {es : List CaEv} (hr : Ca.Run nd v6 (Ca.init need server) as s es) :
    caMade es + (if s.cli.op = .connecting then 1 else 0) ≤ caTried es := by
  generalize he : Ca.init need server = s0 at hr
  induction hr with
  | nil => subst he; simp [caMade, caTried, Ca.init, Cli.init]
  | snoc s1 s2 as a es fs _ hs ih =>
    have key : caMade fs + (if s2.cli.op = .connecting then 1 else 0) ≤ caTried fs + (if s1.cli.op = .connecting then 1 else 0) := by
      cases a with
      | setServer p ip =>
        simp only [Ca.step, Option.map_eq_some_iff] at hs
        obtain ⟨r, _, he⟩ := hs
        cases he
        simp [caMade, caTried]
      | setLocal p ip =>
        simp only [Ca.step, Option.map_eq_some_iff] at hs
        obtain ⟨r, _, he⟩ := hs
        cases he
        simp [caMade, caTried]
      | cli a free =>
        obtain ⟨c, ces, s3, hstep, h1, h2, h3, h4, h5⟩ := Ca.cli_step hs
        obtain ⟨k1, k2⟩ := Cli.made_step hstep
        by_cases h0 : attempts ces = 0
        · obtain ⟨rfl, rfl⟩ := h4.1 h0
          rw [caMade_map, caTried_map, h3]
          omega
        · obtain ⟨rfl, rfl⟩ := h4.2 h0
          obtain ⟨j1, j2, j3, j4, j5⟩ := Ca.connect_bound s3
          rw [j1, j3, h3]
          have e1 : caMade ([CaEv.connect s3.bound s3.server] ++ ces.map .cli) = caMade (ces.map .cli) := by simp [caMade]
          have e2 : caTried ([CaEv.connect s3.bound s3.server] ++ ces.map .cli) = 1 + caTried (ces.map .cli) := by simp [caTried]; omega
          rw [e1, e2, caMade_map, caTried_map]
          omega
    have e1 : caMade (es ++ fs) = caMade es + caMade fs := by simp [caMade]
    have e2 : caTried (es ++ fs) = caTried es + caTried fs := by simp [caTried]
    omega

/-! ### What is not so -/

theorem Ca.bind_family (s : Ca) (free : Bool) (h : s.here.source ≠ none) (hk : ∀ k, s.sock = some k → k.v6 = s.here.v6) : ∃ k, (s.bind free).2 = some k ∧ k.v6 = s.here.v6 := by
  have hh : s.here.port ≠ 0 ∨ s.here.ip ≠ none := by
    apply Decidable.byContradiction
    intro hn
    simp only [ne_eq, not_or, Decidable.not_not] at hn
    exact h (by simp only [Ep.source]; rw [if_pos hn])
  simp only [Ca.bind]
  rw [if_pos hh]
  cases hs : s.sock with
  | none => cases free <;> simp
  | some k =>
    have := hk k hs
    simp only
    cases k.bound with
    | some _ => exact ⟨_, rfl, this⟩
    | none => cases free <;> exact ⟨_, rfl, this⟩

theorem Cli.op_step {s c : Cli} {a : CliAct} {es : List CliEv} (h : s.step a = some (c, es)) :
    (∀ ms, c.op = .tconn true ms → s.binds a = true ∨ (s.op = .tconn true ms ∧ s.closes a = false)) ∧ (attempts es ≠ 0 → s.binds a = true ∨ ((∃ ms, s.op = .tconn true ms) ∧ s.closes a = false)) ∧ (c.op = .connecting → attempts es ≠ 0 ∨ s.op = .connecting) := by
  cases a <;> simp only [Cli.step, Cli.start, Cli.forceShutdown, Cli.gracefulShutdown, Cli.shutdown, Cli.close] at h <;> (repeat' split at h) <;> cases h <;>
    simp_all [attempts, Cli.binds, Cli.closes] <;> (try (cases hop : s.op <;> simp_all [CliOp.noTimer]))

/-- A client with a local address of the other IP version. -/
structure Ca.Odd (s : Ca) (e server : Ep) : Prop where
  here : s.here = e
  server : s.server = server
  fam : ∀ k, s.sock = some k → k.v6 = e.v6
  first : ∀ ms, s.cli.op = .tconn true ms → s.sock ≠ none
  able : s.cli.op = .connecting → s.able = false

theorem Ca.odd_step {nd v6 : Bool} {s s' : Ca} {a : CliAct} {free : Bool} {fs : List CaEv} {e server : Ep} (he : e.source ≠ none) (hv : e.v6 ≠ server.v6) (h : s.Odd e server) (hs : s.step nd v6 (.cli a free) = some (s', fs)) :
    s'.Odd e server ∧ .cli .connected ∉ fs := by
  obtain ⟨o1, o2, o3, o4, o5⟩ := h
  simp only [Ca.step] at hs
  by_cases hb : s.cli.binds a ∧ a.bindSays ≠ ((s.shut a).bind free).1
  · rw [if_pos hb] at hs; cases hs
  rw [if_neg hb] at hs
  by_cases hc : a = .connectDone true ∧ s.able = false
  · rw [if_pos hc] at hs; cases hs
  rw [if_neg hc] at hs
  cases hstep : s.cli.step a with
  | none => rw [hstep] at hs; cases hs
  | some ces =>
    obtain ⟨c, es⟩ := ces
    rw [hstep] at hs
    simp only at hs
    obtain ⟨q1, q2, q3⟩ := Cli.op_step hstep
    have hcon : CliEv.connected ∉ es := by
      intro hm
      have ha : a = .connectDone true ∧ s.cli.op = .connecting := by
        revert hm
        cases a <;> simp only [Cli.step, Cli.start, Cli.forceShutdown, Cli.gracefulShutdown] at hstep <;> (repeat' split at hstep) <;> cases hstep <;> simp_all
      exact hc ⟨ha.1, o5 ha.2⟩
    have hsh : (s.shut a).server = server ∧ (s.shut a).here = e ∧ (s.shut a).able = s.able ∧ (∀ k, (s.shut a).sock = some k → k.v6 = e.v6) ∧ (s.cli.closes a = false → (s.shut a).sock = s.sock) := by
      simp only [Ca.shut]
      cases s.cli.closes a with
      | true => exact ⟨o2, o1, rfl, fun k hk => by simp at hk, fun h => by cases h⟩
      | false => exact ⟨o2, o1, rfl, o3, fun _ => rfl⟩
    have hti : (s.tie a free).server = server ∧ (s.tie a free).here = e ∧ (s.tie a free).able = s.able ∧ (∀ k, (s.tie a free).sock = some k → k.v6 = e.v6) ∧
        (s.cli.binds a = true → (s.tie a free).sock ≠ none) ∧ (s.cli.binds a = false → s.cli.closes a = false → (s.tie a free).sock = s.sock) := by
      simp only [Ca.tie]
      cases hbi : s.cli.binds a with
      | false =>
        simp only [Bool.false_eq_true, if_false]
        exact ⟨hsh.1, hsh.2.1, hsh.2.2.1, hsh.2.2.2.1, fun h => h.elim, fun _ => hsh.2.2.2.2⟩
      | true =>
        simp only [if_true]
        obtain ⟨k, hk, hk2⟩ := Ca.bind_family (s.shut a) free (by rw [hsh.2.1]; exact he) (by rw [hsh.2.1]; exact hsh.2.2.2.1)
        rw [hsh.2.1] at hk2
        exact ⟨hsh.1, hsh.2.1, hsh.2.2.1, fun k' hk' => by rw [hk] at hk'; cases hk'; exact hk2, fun _ => by rw [hk]; simp, fun h => by cases h⟩
    obtain ⟨t1, t2, t3, t4, t5, t6⟩ := hti
    have hsome : (∃ ms, c.op = .tconn true ms) ∨ attempts es ≠ 0 → (s.tie a free).sock ≠ none := by
      intro hh
      have : s.cli.binds a = true ∨ ((∃ ms, s.cli.op = .tconn true ms) ∧ s.cli.closes a = false) := by
        rcases hh with ⟨ms, hh⟩ | hh
        · rcases q1 ms hh with h | ⟨h1, h2⟩
          · exact Or.inl h
          · exact Or.inr ⟨⟨ms, h1⟩, h2⟩
        · exact q2 hh
      cases hbi : s.cli.binds a with
      | true => exact t5 hbi
      | false =>
        rcases this with h | ⟨⟨ms, h1⟩, h2⟩
        · rw [hbi] at h; cases h
        · rw [t6 hbi h2]; exact o4 ms h1
    by_cases h0 : 0 < attempts es
    · rw [if_pos h0] at hs
      cases hs
      obtain ⟨k, hk⟩ := Option.ne_none_iff_exists'.mp (hsome (Or.inr (by omega)))
      have hkv := t4 k hk
      refine ⟨⟨t2, t1, ?_, fun ms _ => by simp [Ca.connect], fun _ => ?_⟩, ?_⟩
      · intro k' hk'
        simp only [Ca.connect, hk] at hk'
        cases hk'
        exact hkv
      · simp only [Ca.connect, hk, t1, hkv]
        simpa using hv
      · simp only [Ca.connect]
        simp [hcon]
    · rw [if_neg h0] at hs
      cases hs
      refine ⟨⟨t2, t1, t4, fun ms hm => hsome (Or.inl ⟨ms, hm⟩), fun ho => ?_⟩, by simp [hcon]⟩
      rcases q3 ho with h | h
      · omega
      · show (s.tie a free).able = false
        rw [t3]; exact o5 h

/-- C108 is not all a user expects: a client that is given a local port only (IPv4 by default) never connects to an IPv6 server (or the other way round), however often it tries: the socket is opened with the version of the local address. -/
theorem C108_fails_family {nd v6 need : Bool} {server e : Ep} (he : e.source ≠ none) (hv : e.v6 ≠ server.v6) {as : List CaAct} (ha : ∀ x ∈ as, ∃ a free, x = .cli a free) {s : Ca} {es : List CaEv}
    (hr : Ca.Run nd v6 { Ca.init need server with here := e } as s es) : .cli .connected ∉ es := by
  have : s.Odd e server ∧ .cli .connected ∉ es := by
    generalize h0 : { Ca.init need server with here := e } = s0 at hr
    induction hr with
    | nil =>
      subst h0
      exact ⟨⟨rfl, rfl, fun k hk => by simp [Ca.init] at hk, fun ms hm => by simp [Ca.init, Cli.init] at hm, fun h => by simp [Ca.init, Cli.init] at h⟩, by simp⟩
    | snoc s1 s2 as a es fs _ hs ih =>
      obtain ⟨i1, i2⟩ := ih (fun x hx => ha x (by simp [hx]))
      obtain ⟨a', free, rfl⟩ := ha a (by simp)
      obtain ⟨j1, j2⟩ := Ca.odd_step he hv i1 hs
      exact ⟨j1, by simp [i2, j2]⟩
  exact this.2

/-- An address and a port. -/
def ep4 (ip port : Nat) : Ep := { v6 := false, ip := some ip, port := port }

/-- A run, from its events. -/
theorem Ca.run_of_exec {nd v6 : Bool} {s0 : Ca} {as : List CaAct} {es : List CaEv} (h : (Ca.exec nd v6 s0 as).map (·.2) = some es) : ∃ as s es', Ca.Run nd v6 s0 as s es' ∧ es' = es := by
  simp only [Option.map_eq_some_iff] at h
  obtain ⟨⟨s, es'⟩, h, rfl⟩ := h
  exact ⟨_, _, _, Ca.exec_run (.nil _) h, rfl⟩

/-- C108: a local address set after start() but before the first attempt (50 ms later) is not used, although the server's address set then is. -/
theorem C108_fails_late : ∃ as s es, Ca.Run true false (Ca.init true (ep4 1 80)) as s es ∧
    es = [.cli .started, .setLocal 5000 (.addr false (some 7)), .setServer 81 (.addr false (some 2)), .connect none (ep4 2 81), .cli (.attempt 50), .cli .connected] :=
  Ca.run_of_exec (as := [.cli (.userStart true) true, .setLocal 5000 (.addr false (some 7)), .setServer 81 (.addr false (some 2)), .cli (.fireConnect true) true, .cli (.connectDone true) true]) (by decide +kernel)

/-- The hypotheses are met: a client with a local address fails, gets another server to try from prepare_reconnect (a fail-over), connects, loses the link and connects again, always from its local address. -/
theorem C108_demo : ∃ as s es, Ca.Run true false (Ca.init true (ep4 1 80)) as s es ∧
    es = [.setLocal 5000 (.addr false (some 7)), .cli .started, .connect (some (ep4 7 5000)) (ep4 1 80), .cli (.attempt 50), .cli .failed, .setServer 81 (.addr false (some 2)), .cli (.asked 500), .connect (some (ep4 7 5000)) (ep4 2 81),
      .cli (.attempt 500), .cli .connected, .cli .lost, .cli .closed, .cli .started, .connect (some (ep4 7 5000)) (ep4 2 81), .cli (.attempt 50), .cli .connected] :=
  Ca.run_of_exec (as := [.setLocal 5000 (.addr false (some 7)), .cli (.userStart true) true, .cli (.fireConnect true) true, .cli (.connectDone false) true, .setServer 81 (.addr false (some 2)), .cli (.fireDelay 500) true, .cli (.fireConnect true) true,
    .cli (.connectDone true) true, .cli .lost true, .cli .runForce true, .cli (.onClose true) true, .cli (.fireConnect true) true, .cli (.connectDone true) true]) (by decide +kernel)

/-- The hypotheses of C108_fails_family are met: such a client tries and fails. -/
theorem C108_family_demo : ∃ as s es, Ca.Run true false { Ca.init true { v6 := true, ip := some 1, port := 80 } with here := { v6 := false, ip := none, port := 5000 } } as s es ∧
    es = [.cli .started, .connect (some { v6 := false, ip := none, port := 5000 }) { v6 := true, ip := some 1, port := 80 }, .cli (.attempt 50), .cli .failed, .cli (.asked 500),
      .connect (some { v6 := false, ip := none, port := 5000 }) { v6 := true, ip := some 1, port := 80 }, .cli (.attempt 500), .cli .failed] :=
  Ca.run_of_exec (as := [.cli (.userStart true) true, .cli (.fireConnect true) true, .cli (.connectDone false) true, .cli (.fireDelay 500) true, .cli (.fireConnect true) true, .cli (.connectDone false) true]) (by decide +kernel)

end StAsio
