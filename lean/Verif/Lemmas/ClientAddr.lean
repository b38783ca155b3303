import Verif.Model.ClientAddr
/-! Invariants for C108. -/
set_option autoImplicit false
namespace StAsio

theorem caRight_append (v6 : Bool) (m : CaSt) (es fs : List CaEv) : caRight v6 m (es ++ fs) = (caRight v6 m es).bind (caRight v6 · fs) := by
  induction es generalizing m with
  | nil => rfl
  | cons e es ih =>
    simp only [List.cons_append, caRight]
    cases caAfter v6 m e with
    | none => rfl
    | some m1 => exact ih m1

/-- What the kernel socket is bound to. -/
def Ca.bound (s : Ca) : Option Ep := s.sock.bind (·.bound)

structure Ca.Inv (s : Ca) (m : CaSt) : Prop where
  server : m.server = s.server
  here : m.here = s.here
  first : ∀ ms, s.cli.op = .tconn true ms → m.again = false ∧ s.bound = m.atStart.source
  again : ∀ ms, s.cli.op = .tconn false ms → m.again = true ∧ s.sock = none
  timer : ∀ f ms, s.cli.op = .tconn f ms → s.cli.started = true
  closing : s.cli.closing = true → s.cli.started = false
  idle : s.cli.started = false → s.cli.closing = false → s.bound = none

/-- bind() of a socket that is not bound. -/
theorem Ca.bind_spec (s : Ca) (free : Bool) (h : s.bound = none) : ((s.bind free).1 = true → (s.bind free).2.bind (·.bound) = s.here.source) ∧ ((s.bind free).1 = false → (s.bind free).2.bind (·.bound) = none) := by
  simp only [Ca.bound] at h
  by_cases hh : s.here.port ≠ 0 ∨ s.here.ip ≠ none
  · have hsrc : s.here.source = some s.here := by
      simp only [Ep.source]
      rw [if_neg]
      rintro ⟨h1, h2⟩
      rcases hh with hh | hh
      · exact hh h1
      · exact hh h2
    simp only [Ca.bind]
    rw [if_pos hh, hsrc]
    cases hs : s.sock with
    | none => cases free <;> simp
    | some k =>
      rw [hs] at h
      simp only [Option.bind_some] at h
      simp only [h]
      cases free <;> simp [h]
  · have hsrc : s.here.source = none := by
      simp only [Ep.source]
      rw [if_pos]
      simp only [ne_eq, not_or, Decidable.not_not] at hh
      exact hh
    simp only [Ca.bind]
    rw [if_neg hh, hsrc]
    exact ⟨fun _ => h, fun h' => by cases h'⟩

theorem Ca.connect_bound (s : Ca) : s.connect.2 = [.connect s.bound s.server] ∧ s.connect.1.bound = s.bound ∧ s.connect.1.cli = s.cli ∧ s.connect.1.server = s.server ∧ s.connect.1.here = s.here := by
  simp only [Ca.connect, Ca.bound]
  cases s.sock <;> simp

/-- The client's step and its events, apart from bind and connect. -/
theorem Ca.cli_step {nd v6 : Bool} {s s' : Ca} {a : CliAct} {free : Bool} {fs : List CaEv} (hs : s.step nd v6 (.cli a free) = some (s', fs)) :
    ∃ c es s2, s.cli.step a = some (c, es) ∧ s2.server = s.server ∧ s2.here = s.here ∧ s2.cli = c ∧
      ((attempts es = 0 → s' = s2 ∧ fs = es.map .cli) ∧ (attempts es ≠ 0 → s' = s2.connect.1 ∧ fs = s2.connect.2 ++ es.map .cli)) ∧
      ((s.cli.binds a = false ∧ s2.sock = (if s.cli.closes a then none else s.sock)) ∨
        (s.cli.binds a = true ∧ ((if s.cli.closes a then none else s.sock).bind (·.bound) = none → (a.bindSays = true → s2.bound = s.here.source) ∧ (a.bindSays = false → s2.bound = none)))) := by
  simp only [Ca.step] at hs
  by_cases hb : s.cli.binds a ∧ a.bindSays ≠ ((s.shut a).bind free).1
  · rw [if_pos hb] at hs; cases hs
  rw [if_neg hb] at hs
  by_cases hc : a = .connectDone true ∧ s.able = false
  · rw [if_pos hc] at hs; cases hs
  rw [if_neg hc] at hs
  cases hstep : s.cli.step a with
  | none => rw [hstep] at hs; cases hs
  | some ces =>
    obtain ⟨c, es⟩ := ces
    rw [hstep] at hs
    simp only at hs
    have hsh : (s.shut a).server = s.server ∧ (s.shut a).here = s.here ∧ (s.shut a).sock = (if s.cli.closes a then none else s.sock) := by
      simp only [Ca.shut]; cases s.cli.closes a <;> exact ⟨rfl, rfl, rfl⟩
    have hti : (s.tie a free).server = s.server ∧ (s.tie a free).here = s.here := by
      simp only [Ca.tie]; cases s.cli.binds a <;> exact ⟨hsh.1, hsh.2.1⟩
    refine ⟨c, es, { s.tie a free with cli := c }, rfl, hti.1, hti.2, rfl, ?_, ?_⟩
    · by_cases h0 : 0 < attempts es
      · rw [if_pos h0] at hs; cases hs; exact ⟨fun h => by omega, fun _ => ⟨rfl, rfl⟩⟩
      · rw [if_neg h0] at hs; cases hs; exact ⟨fun _ => ⟨rfl, rfl⟩, fun h => by omega⟩
    · cases hbi : s.cli.binds a with
      | false => exact Or.inl ⟨rfl, by simp only [Ca.tie, hbi]; exact hsh.2.2⟩
      | true =>
        refine Or.inr ⟨rfl, fun hn => ?_⟩
        have hsay : a.bindSays = ((s.shut a).bind free).1 := Decidable.byContradiction fun h => hb ⟨hbi, h⟩
        have hsp := Ca.bind_spec (s.shut a) free (by simp only [Ca.bound, hsh.2.2]; exact hn)
        rw [hsh.2.1] at hsp
        have e : Ca.bound { s.tie a free with cli := c } = ((s.shut a).bind free).2.bind (·.bound) := by simp only [Ca.bound, Ca.tie, hbi, if_true]
        rw [e]
        exact ⟨fun h => hsp.1 (hsay ▸ h), fun h => hsp.2 (hsay ▸ h)⟩

theorem Ca.inv_step {nd v6 : Bool} {s s' : Ca} {a : CaAct} {fs : List CaEv} {m : CaSt} (hi : s.Inv m) (hs : s.step nd v6 a = some (s', fs)) : ∃ m', caRight v6 m fs = some m' ∧ s'.Inv m' := by
  obtain ⟨i1, i2, i3, i4, i5, i6, i7⟩ := hi
  cases a with
  | setServer port ip =>
    simp only [Ca.step, Option.map_eq_some_iff] at hs
    obtain ⟨r, hr, he⟩ := hs
    cases he
    refine ⟨_, rfl, ⟨?_, i2, i3, i4, i5, i6, i7⟩⟩
    cases ip with
    | empty => cases hr; rfl
    | addr v a => cases hr; rfl
    | wrong =>
      simp only [setAddr] at hr
      split at hr <;> cases hr
      exact i1
  | setLocal port ip =>
    simp only [Ca.step, Option.map_eq_some_iff] at hs
    obtain ⟨r, hr, he⟩ := hs
    cases he
    refine ⟨_, rfl, ⟨i1, ?_, i3, i4, i5, i6, i7⟩⟩
    cases ip with
    | empty => cases hr; rfl
    | addr v a => cases hr; rfl
    | wrong =>
      simp only [setAddr] at hr
      split at hr <;> cases hr
      exact i2
  | cli a free =>
    obtain ⟨c, es, s2, hstep, h1, h2, h3, h4, h5⟩ := Ca.cli_step hs
    -- nothing but the client's state changes, or the socket is closed
    have keep : ∀ m' : CaSt, m'.server = m.server → m'.here = m.here → attempts es = 0 → caRight v6 m (es.map .cli) = some m' → (s2.server = s.server → s2.here = s.here → Ca.Inv s2 m') → ∃ m', caRight v6 m fs = some m' ∧ s'.Inv m' := by
      intro m' _ _ h0 hm hinv
      obtain ⟨rfl, rfl⟩ := h4.1 h0
      exact ⟨m', hm, hinv h1 h2⟩
    have unb : s.cli.binds a = false → s2.bound = if s.cli.closes a then none else s.bound := by
      intro hb
      rcases h5 with ⟨_, h⟩ | ⟨h, _⟩
      · simp only [Ca.bound, h]; split <;> rfl
      · rw [hb] at h; cases h
    have uns : s.cli.binds a = false → s2.sock = if s.cli.closes a then none else s.sock := by
      intro hb
      rcases h5 with ⟨_, h⟩ | ⟨h, _⟩
      · exact h
      · rw [hb] at h; cases h
    have bnd : s.cli.binds a = true → ((if s.cli.closes a then none else s.sock).bind (·.bound) = none) → (a.bindSays = true → s2.bound = s.here.source) ∧ (a.bindSays = false → s2.bound = none) := by
      intro hb
      rcases h5 with ⟨h, _⟩ | ⟨_, h⟩
      · rw [hb] at h; cases h
      · exact h
    clear h5 hs
    have start_inv : ∀ (x : Cli) (b : Bool), (x.start b).1 = s2.cli → x.op = s.cli.op → x.started = s.cli.started → x.closing = s.cli.closing → x.stopped = s.cli.stopped → s.cli.closes a = false → a.bindSays = b →
        (s.cli.binds a = true ↔ s.cli.started = false ∧ s.cli.closing = false ∧ s.cli.stopped = false) → es = (x.start b).2 → ∃ m', caRight v6 m fs = some m' ∧ s'.Inv m' := by
      intro x b hx x1 x2 x3 x4 hcl hsay hbi hes
      simp only [Cli.start, x2, x3, x4] at hx hes
      by_cases hst : s.cli.started = false ∧ s.cli.closing = false ∧ s.cli.stopped = false
      · rw [if_pos hst] at hx hes
        have hb := bnd (hbi.mpr hst) (by rw [hcl]; exact i7 hst.1 hst.2.1)
        rw [hsay] at hb
        cases b with
        | true =>
          simp only [if_true] at hx hes
          subst hes
          refine keep { m with atStart := m.here, again := false } rfl rfl rfl rfl fun g1 g2 => ⟨i1.trans g1.symm, i2.trans g2.symm, ?_, ?_, ?_, ?_, ?_⟩ <;> rw [← hx] <;> grind
        | false =>
          simp only [Bool.false_eq_true, if_false] at hx hes
          subst hes
          refine keep m rfl rfl rfl rfl fun g1 g2 => ⟨i1.trans g1.symm, i2.trans g2.symm, ?_, ?_, ?_, ?_, ?_⟩ <;> rw [← hx] <;> grind
      · rw [if_neg hst] at hx hes
        subst hes
        have hbf : s.cli.binds a = false := by cases h : s.cli.binds a with | false => rfl | true => exact absurd (hbi.mp h) hst
        have e1 := unb hbf
        have e2 := uns hbf
        rw [hcl] at e1 e2
        simp only [Bool.false_eq_true, if_false] at e1 e2
        refine keep m rfl rfl rfl rfl fun g1 g2 => ⟨i1.trans g1.symm, i2.trans g2.symm, ?_, ?_, ?_, ?_, ?_⟩ <;> rw [← hx] <;> grind
    -- an action that does not start or try again
    have quiet : s.cli.binds a = false → attempts es = 0 → caRight v6 m (es.map .cli) = some m → (∀ f ms, c.op = .tconn f ms → c.op = s.cli.op ∧ s.cli.closes a = false ∧ c.started = s.cli.started) → (c.closing = true → c.started = false) →
        (c.started = false → c.closing = false → (s.cli.started = false ∧ s.cli.closing = false) ∨ s.cli.closes a = true) → ∃ m', caRight v6 m fs = some m' ∧ s'.Inv m' := by
      intro hb h0 hm q1 q2 q3
      have e1 := unb hb
      have e2 := uns hb
      refine keep m rfl rfl h0 hm fun g1 g2 => ⟨i1.trans g1.symm, i2.trans g2.symm, ?_, ?_, ?_, ?_, ?_⟩ <;> rw [h3] <;> grind
    cases a with
    | userStart b =>
      simp only [Cli.step, Option.some.injEq] at hstep
      exact start_inv s.cli b (by rw [h3, hstep]) rfl rfl rfl rfl rfl rfl (by simp [Cli.binds, and_assoc]) (by rw [hstep])
    | connectDone ok =>
      simp only [Cli.step] at hstep
      split at hstep
      · split at hstep <;> cases hstep <;> exact quiet rfl rfl rfl (by grind [Cli.closes]) (by grind) (by grind)
      · cases hstep
    | cancelDelay | lost | selfDown | setReconnect b | setReconnectIdle =>
      simp only [Cli.step] at hstep
      split at hstep
      · cases hstep; exact quiet rfl rfl rfl (by grind [Cli.closes]) (by grind) (by grind)
      · cases hstep
    | pumpStop =>
      simp only [Cli.step] at hstep
      cases hstep; exact quiet rfl rfl rfl (by grind [Cli.closes]) (by grind) (by grind)
    | fireConnect b =>
      simp only [Cli.step] at hstep
      split at hstep
      · rename_i first ms hop
        by_cases hst : s.cli.stopped = true
        · rw [if_pos hst] at hstep; cases hstep
        rw [if_neg hst] at hstep
        have hst : s.cli.stopped = false := by simpa using hst
        have hstd := i5 _ _ hop
        by_cases hff : first = false ∧ b = false
        · rw [if_pos hff] at hstep
          obtain ⟨rfl, rfl⟩ := hff
          cases hstep
          refine keep m rfl rfl rfl rfl fun g1 g2 => ⟨i1.trans g1.symm, i2.trans g2.symm, ?_, ?_, ?_, ?_, ?_⟩ <;> rw [h3] <;> grind
        · rw [if_neg hff] at hstep
          cases hstep
          obtain ⟨hs', hfs⟩ := h4.2 (by simp [attempts])
          obtain ⟨k1, k2, k3, k4, k5⟩ := Ca.connect_bound s2
          rw [k1] at hfs
          have hsrc : s2.bound = (if m.again then m.here else m.atStart).source := by
            cases first with
            | true =>
              have e1 := unb (by simp only [Cli.binds, hop]; rfl)
              obtain ⟨j1, j2⟩ := i3 _ hop
              rw [e1, j1]
              exact j2
            | false =>
              obtain ⟨j1, j2⟩ := i4 _ hop
              have hbt : b = true := by cases b with | true => rfl | false => exact absurd ⟨rfl, rfl⟩ hff
              have e1 := (bnd (by simp only [Cli.binds, hop, hst]; rfl) (by rw [j2]; rfl)).1 hbt
              rw [e1, j1, if_pos rfl, i2]
          refine ⟨m, ?_, ?_⟩
          · rw [hfs]
            simp only [List.map, List.cons_append, List.nil_append, caRight, caAfter, h1, i1]
            rw [if_pos ⟨trivial, hsrc⟩]
            rfl
          · rw [hs']
            refine ⟨by rw [k4, h1]; exact i1, by rw [k5, h2]; exact i2, ?_, ?_, ?_, ?_, ?_⟩ <;> rw [k3, h3] <;> grind
      · cases hstep
    | fireDelay n =>
      simp only [Cli.step] at hstep
      split at hstep
      · rename_i hop
        split at hstep
        · rename_i hns
          have hcl : s.cli.closes (.fireDelay n) = true := by simp only [Cli.closes, hns.1, hns.2]; rfl
          have e1 := unb rfl
          have e2 := uns rfl
          rw [hcl] at e1 e2
          simp only [if_true] at e1 e2
          split at hstep <;> cases hstep
          · refine keep { m with again := true } rfl rfl rfl rfl fun g1 g2 => ⟨i1.trans g1.symm, i2.trans g2.symm, ?_, ?_, ?_, ?_, ?_⟩ <;> rw [h3] <;> grind
          · refine keep { m with again := true } rfl rfl rfl rfl fun g1 g2 => ⟨i1.trans g1.symm, i2.trans g2.symm, ?_, ?_, ?_, ?_, ?_⟩ <;> rw [h3] <;> grind
        · cases hstep; exact quiet rfl rfl rfl (by grind [Cli.closes]) (by grind) (by grind)
      · cases hstep
    | force b bind =>
      simp only [Cli.step, Option.some.injEq, Cli.forceShutdown] at hstep
      by_cases hb : b = true ∧ s.cli.status = .broken ∧ s.cli.started = false
      · rw [if_pos hb] at hstep
        exact start_inv { s.cli with need := b } bind (by rw [h3, hstep]) rfl rfl rfl rfl rfl rfl (by simp [Cli.binds, hb.1, hb.2.1, and_assoc]) (by rw [hstep])
      · rw [if_neg hb] at hstep
        cases hstep
        refine quiet ?_ rfl rfl (by grind [Cli.closes]) (by grind) (by grind)
        cases h : s.cli.binds (.force b bind) with
        | false => rfl
        | true => simp [Cli.binds] at h; exact absurd ⟨h.1.1.1.1, h.1.1.1.2, h.1.1.2⟩ hb
    | graceful b bind =>
      simp only [Cli.step, Option.some.injEq, Cli.gracefulShutdown] at hstep
      by_cases hb : b = true ∧ s.cli.status = .broken ∧ s.cli.started = false
      · rw [if_pos hb] at hstep
        exact start_inv { s.cli with need := b } bind (by rw [h3, hstep]) rfl rfl rfl rfl rfl rfl (by simp [Cli.binds, hb.1, hb.2.1, and_assoc]) (by rw [hstep])
      · rw [if_neg hb] at hstep
        have hbf : s.cli.binds (.graceful b bind) = false := by
          cases h : s.cli.binds (.graceful b bind) with
          | false => rfl
          | true => simp [Cli.binds] at h; exact absurd ⟨h.1.1.1.1, h.1.1.1.2, h.1.1.2⟩ hb
        by_cases hbr : s.cli.status = .broken
        · rw [if_pos hbr] at hstep
          simp only [Cli.forceShutdown] at hstep
          rw [if_neg hb] at hstep
          cases hstep
          exact quiet hbf rfl rfl (by grind [Cli.closes]) (by grind) (by grind)
        · rw [if_neg hbr] at hstep
          cases hstep
          exact quiet hbf rfl rfl (by grind [Cli.closes]) (by grind) (by grind)
    | runForce =>
      simp only [Cli.step] at hstep
      split at hstep
      · cases hstep
        refine quiet rfl rfl rfl ?_ ?_ ?_ <;> (simp only [Cli.shutdown, Cli.close, Cli.closes]; cases s.cli.op <;> grind [CliOp.noTimer])
      · cases hstep
    | runGraceful err =>
      simp only [Cli.step] at hstep
      split at hstep
      · split at hstep
        · cases hstep
          refine quiet rfl rfl rfl ?_ ?_ ?_ <;> (simp only [Cli.shutdown, Cli.close, Cli.closes]; cases s.cli.op <;> grind [CliOp.noTimer])
        · split at hstep
          · cases hstep
            refine quiet rfl rfl rfl ?_ ?_ ?_ <;> (simp only [Cli.shutdown, Cli.close, Cli.closes]; cases s.cli.op <;> grind [CliOp.noTimer])
          · cases hstep
            refine quiet rfl rfl rfl ?_ ?_ ?_ <;> (simp only [Cli.closes]; cases s.cli.op <;> grind [CliOp.noTimer])
      · cases hstep
    | onClose b =>
      simp only [Cli.step] at hstep
      split at hstep
      · rename_i hg
        have hstd := i6 hg.1
        by_cases hn : s.cli.need = true
        · rw [if_pos hn] at hstep
          have hb := bnd (by simp only [Cli.binds, hn, hstd]; rfl) rfl
          simp only [Cli.start, hstd, hg.2.2.2.2] at hstep
          rw [if_pos ⟨trivial, trivial, trivial⟩] at hstep
          cases b with
          | true =>
            simp only [if_true] at hstep
            cases hstep
            refine keep { m with atStart := m.here, again := false } rfl rfl rfl rfl fun g1 g2 => ⟨i1.trans g1.symm, i2.trans g2.symm, ?_, ?_, ?_, ?_, ?_⟩ <;> rw [h3] <;> grind [CliAct.bindSays]
          | false =>
            simp only [Bool.false_eq_true, if_false] at hstep
            cases hstep
            refine keep m rfl rfl rfl rfl fun g1 g2 => ⟨i1.trans g1.symm, i2.trans g2.symm, ?_, ?_, ?_, ?_, ?_⟩ <;> rw [h3] <;> grind [CliAct.bindSays]
        · rw [if_neg hn] at hstep
          cases hstep
          exact quiet (by simp only [Cli.binds]; simp [hn]) rfl rfl (by grind) (by grind) (fun _ _ => Or.inr rfl)
      · cases hstep

theorem Ca.inv_init (need : Bool) (server : Ep) : (Ca.init need server).Inv { server := server, here := { v6 := false, ip := none, port := 0 }, atStart := { v6 := false, ip := none, port := 0 }, again := false } := by
  constructor <;> simp [Ca.init, Cli.init, Ca.bound]

theorem Ca.inv_run {nd v6 need : Bool} {server : Ep} {as : List CaAct} {s : Ca} {es : List CaEv} (hr : Ca.Run nd v6 (Ca.init need server) as s es) :
    ∃ m, caRight v6 { server := server, here := { v6 := false, ip := none, port := 0 }, atStart := { v6 := false, ip := none, port := 0 }, again := false } es = some m ∧ s.Inv m := by
  generalize he : Ca.init need server = s0 at hr
  induction hr with
  | nil => subst he; exact ⟨_, rfl, Ca.inv_init need server⟩
  | snoc s1 s2 as a es fs _ hs ih =>
    obtain ⟨m, hm, hi⟩ := ih
    obtain ⟨m', hm', hi'⟩ := Ca.inv_step hi hs
    exact ⟨m', by rw [caRight_append, hm]; exact hm', hi'⟩

theorem Ca.exec_run {nd v6 : Bool} {s0 : Ca} {bs : List CaAct} {s : Ca} {ds : List CaEv} (h0 : Ca.Run nd v6 s0 bs s ds) {as : List CaAct} {s' : Ca} {es : List CaEv}
    (h : Ca.exec nd v6 s as = some (s', es)) : Ca.Run nd v6 s0 (bs ++ as) s' (ds ++ es) := by
  induction as generalizing bs s ds es with
  | nil =>
    simp only [Ca.exec, Option.some.injEq, Prod.mk.injEq] at h
    obtain ⟨rfl, rfl⟩ := h
    simpa using h0
  | cons a as ih =>
    simp only [Ca.exec, Bind.bind, Option.bind_eq_some_iff] at h
    obtain ⟨⟨s1, e1⟩, h1, ⟨s2, e2⟩, h2, h3⟩ := h
    simp only [Option.some.injEq, Prod.mk.injEq] at h3
    obtain ⟨rfl, rfl⟩ := h3
    have := ih (.snoc _ _ _ _ _ _ _ h0 h1) h2
    simpa using this

end StAsio
