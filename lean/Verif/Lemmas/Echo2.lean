import Verif.Lemmas.Echo
set_option autoImplicit false
namespace StAsio

def Echo.weight (c : Cfg) : Nat := 60 * (30 + c.bufSize)

/-- An upper bound for the number of steps that go on without the client's application while the server's send buffer is not full. -/
def Echo.work (c : Cfg) (s : Echo) : Nat := Echo.weight c * s.up.work + s.down.work

theorem Tx.sendList_work {s : Tx} (hi : s.Inv) (ms : List TxMsg) : (s.sendList ms false).1.work ≤ s.work + 9 + msgWork ms ∧ (s.sendList ms false).1.wire = s.wire := by
  have hbad := (Tx.step_inv (batch := 0) (a := .sendList ms false) hi (s' := (s.sendList ms false).1) (es := (s.sendList ms false).2) rfl).1.bad
  simp only [Tx.sendList, Bool.false_eq_true, if_false] at *
  split
  · next h => simp [h] at hbad
  · next q h =>
    refine ⟨?_, rfl⟩
    have hit : q.items = s.q.items ++ ms := by
      simp only [Q.moveIn, Option.bind_eq_bind] at h
      rw [Option.bind_eq_some_iff] at h
      obtain ⟨n, _, h⟩ := h
      simp only [Option.pure_def, Option.some.injEq] at h
      rw [← h]
    have hpc : ({ s with q := q, atReady := s.atReady + 1 } : Tx).pcWork ≤ s.pcWork + 2 := by
      simp only [Tx.pcWork]
      rw [hit]
      cases s.pc <;> simp only <;> (repeat' split) <;> simp_all
    simp only [Tx.work, Tx.pcWork] at *
    rw [hit] at *
    rw [msgWork_append]
    omega

/-- Sending a message adds a bounded amount of work. -/
theorem Pipe.send_one_work {c : Cfg} (hv : c.Valid) (hr : c.bufSize < 256 ^ c.headLen) {nd cwf : Bool} {st : Bool} {batch limit : Nat} {s s' : Pipe} {es fs : List PEv} (h : s.Good c st batch limit es) {m : Bytes}
    (hm : (SendCall.one m).pack c nd ≠ some none) (hs : s.step c nd cwf batch limit (.send (.one m) true) = some (s', fs)) : s'.work < s.work + Echo.weight c := by
  obtain ⟨d, d1, d2, d3, head, d4, d5, d6, d7⟩ := Pipe.step_send_one hv hr (cwf := cwf) h m hm
  rw [hs] at d1
  cases d1
  obtain ⟨w1, w2⟩ := Tx.sendList_work h.tx_inv [⟨head, none⟩, ⟨m, none⟩]
  simp only [msgWork, TxMsg.sz] at w1
  simp only [Pipe.work, Pipe.pend, Echo.weight, d2, d5, d6, d7, w2]
  omega

/-- Was a message refused? -/
def refusals : List PEv → Nat
  | [] => 0
  | .handled _ false :: es => refusals es + 1
  | _ :: es => refusals es

theorem refusals_append (a b : List PEv) : refusals (a ++ b) = refusals a + refusals b := by
  induction a with
  | nil => simp [refusals]
  | cons e a ih => rcases e with b | ⟨m, _ | _⟩ <;> simp [refusals, ih] <;> omega

theorem Pipe.refused_work {c : Cfg} {nd cwf : Bool} {batch limit : Nat} {s s' : Pipe} {fs : List PEv} {m : Bytes} (hm : s.rx.cur = some m)
    (hs : s.step c nd cwf batch limit (.rx (.ret false)) = some (s', fs)) : s'.work = s.work + 5 := by
  simp only [Pipe.step, RAct.healthy, if_true] at hs
  rw [Option.map_eq_some_iff] at hs
  obtain ⟨⟨t, tes⟩, h1, h2⟩ := hs
  cases h2
  simp only [Rx.step] at h1
  split at h1
  · cases h1
  · next hpc =>
    rw [hm] at h1
    simp only [Bool.false_eq_true, if_false, Option.some.injEq, Prod.mk.injEq] at h1
    obtain ⟨rfl, _⟩ := h1
    have hpc : s.rx.pc = .handling := by simpa using hpc
    simp only [Pipe.work, Pipe.pend, Rx.work, Rx.pcWork, hpc]
    omega

/-- A poll that finds a full receive buffer. -/
def EAct.isPoll : EAct → Bool
  | .up (.rx .checkTimer) => true
  | .down (.rx .checkTimer) => true
  | _ => false

/-- Every step that goes on without the client's application is a poll without effect, reduces the work, or is a refusal because the send buffer is full. -/
theorem Echo.step_work {c : Cfg} (hv : c.Valid) (hr : c.bufSize < 256 ^ c.headLen) {nd cwf : Bool} {st2 : Bool} {batch limit sendLimit : Nat} {s s' : Echo} {a : EAct}
    {es fs : List EEv} (h : s.Good c true st2 batch limit es) (ha : a.Internal) (hs : s.step c nd cwf batch limit sendLimit a = some (s', fs)) :
    (s'.work c < s.work c ∧ refusals (ups fs) = 0) ∨ (a.isPoll = true ∧ s' = s ∧ fs = []) ∨
      (a = .echo ∧ s'.work c = s.work c + 5 * Echo.weight c ∧ refusals (ups fs) = 1 ∧ sendLimit ≤ s.down.tx.q.total) := by
  have hw0 : 0 < Echo.weight c := by unfold Echo.weight; omega
  have href : ∀ fs : List PEv, ∀ (s s' : Pipe) (a : PAct), a.isRet = false → s.step c nd cwf batch limit a = some (s', fs) → refusals fs = 0 := by
    intro fs s s' a hret hs
    have key : ∀ (l : List REv), (∀ m, REv.ret m false ∉ l) → refusals (l.filterMap rxEv) = 0 := by
      intro l
      induction l with
      | nil => intro _; rfl
      | cons e l ih =>
        intro hl
        have := ih (fun m hm => hl m (by simp [hm]))
        cases e with
        | ret m ok =>
          cases ok with
          | false => exact absurd (List.mem_cons_self) (hl m)
          | true => simpa [rxEv, refusals] using this
        | _ => rw [List.filterMap_cons]; exact this
    cases a with
    | send call fits =>
      simp only [Pipe.step] at hs
      split at hs
      · cases hs; rfl
      · cases hs; rfl
      · simp only [Option.some.injEq, Prod.mk.injEq] at hs
        obtain ⟨_, rfl⟩ := hs
        generalize (List.isEmpty _) = x; cases x <;> rfl
    | tx a =>
      simp only [Pipe.step] at hs
      split at hs
      · rw [Option.map_eq_some_iff] at hs
        obtain ⟨r, _, hs⟩ := hs
        cases hs; rfl
      · cases hs
    | net k =>
      simp only [Pipe.step] at hs
      split at hs
      · split at hs
        · split at hs
          · cases hs; rfl
          · split at hs
            · rw [Option.map_eq_some_iff] at hs
              obtain ⟨r, h1, hs⟩ := hs
              cases hs
              refine key _ ?_
              simp only [Rx.step] at h1
              (repeat' split at h1) <;> (first | (cases h1; done) | (cases h1; simp; done))
            · cases hs; rfl
        · cases hs
      · cases hs
    | rx a =>
      simp only [Pipe.step] at hs
      split at hs
      · next hh =>
        rw [Option.map_eq_some_iff] at hs
        obtain ⟨⟨t, res⟩, h1, hs⟩ := hs
        cases hs
        refine key _ ?_
        cases a with
        | ret ok => simp [PAct.isRet] at hret
        | _ =>
          first
            | (simp [RAct.healthy] at hh; done)
            | (simp only [Rx.step] at h1
               (repeat' split at h1) <;> (first | (cases h1; done) | (cases h1; simp; done)))
      · cases hs
  cases a with
  | up a =>
    simp only [Echo.step] at hs
    split at hs
    · cases hs
    · next hret =>
      rw [Option.map_eq_some_iff] at hs
      obtain ⟨⟨t, tes⟩, h1, h2⟩ := hs
      cases h2
      rcases Pipe.step_work hv h.up ha h1 with hw | ⟨hw1, hw2⟩
      · left
        refine ⟨?_, by rw [ups_up]; exact href _ _ _ _ (by simpa using hret) h1⟩
        simp only [Echo.work]
        have := Nat.mul_lt_mul_of_pos_left hw hw0
        omega
      · right; left
        subst hw1 hw2
        refine ⟨rfl, rfl, ?_⟩
        simp only [Pipe.step, RAct.healthy, if_true, Rx.step] at h1
        split at h1
        · simp at h1
        · simp at h1; simp [← h1.2]
  | down a =>
    simp only [Echo.step] at hs
    split at hs
    · cases hs
    · next hret =>
      rw [Option.map_eq_some_iff] at hs
      obtain ⟨⟨t, tes⟩, h1, h2⟩ := hs
      cases h2
      rcases Pipe.step_work hv h.down ha h1 with hw | ⟨hw1, hw2⟩
      · left
        refine ⟨?_, by rw [ups_down]; rfl⟩
        simp only [Echo.work]
        omega
      · right; left
        subst hw1 hw2
        refine ⟨rfl, rfl, ?_⟩
        simp only [Pipe.step, RAct.healthy, if_true, Rx.step] at h1
        split at h1
        · simp at h1
        · simp at h1; simp [← h1.2]
  | echo =>
    simp only [Echo.step] at hs
    split at hs
    · cases hs
    · next m hm =>
      split at hs
      · next hacc =>
        left
        have hpack : (SendCall.one m).pack c nd ≠ some none := by
          intro hp
          simp only [Echo.accepts, hp] at hacc
          split at hacc <;> simp at hacc
        simp only [Option.bind_eq_bind] at hs
        rw [Option.bind_eq_some_iff] at hs
        obtain ⟨⟨d, des⟩, d1, hs⟩ := hs
        rw [Option.bind_eq_some_iff] at hs
        obtain ⟨⟨u, ues⟩, u1, u2⟩ := hs
        cases u2
        have hdw := Pipe.send_one_work hv hr h.down hpack d1
        have huw : u.work < s.up.work := by
          rcases Pipe.step_work hv h.up (a := .rx (.ret true)) rfl u1 with hw | hw
          · exact hw
          · exact absurd hw.1 (by simp)
        obtain ⟨q1, q2, q3⟩ := Pipe.step_ret hm u1
        refine ⟨?_, by rw [ups_append, ups_down, ups_up, q1]; rfl⟩
        simp only [Echo.work]
        have := Nat.mul_le_mul_left (Echo.weight c) (Nat.succ_le_of_lt huw)
        rw [Nat.mul_succ] at this
        omega
      · next hacc =>
        right; right
        simp only [Option.bind_eq_bind] at hs
        rw [Option.bind_eq_some_iff] at hs
        obtain ⟨⟨u, ues⟩, u1, u2⟩ := hs
        cases u2
        obtain ⟨q1, q2, q3⟩ := Pipe.step_ret hm u1
        refine ⟨rfl, ?_, by rw [ups_up, q1]; rfl, ?_⟩
        · simp only [Echo.work]
          rw [Pipe.refused_work hm u1, Nat.mul_add]
          omega
        · obtain ⟨b, b1, b2, b3⟩ := h.up.cur_mem hm
          have hsm := h.up.small b b2
          simp only [seen, if_true] at b3
          subst b3
          have hpk := packHeader_ok c nd m.length (by have := c.headLen_pos; omega) (by omega)
          have hok : (SendCall.one m).pack c nd ≠ some none := by
            simp only [SendCall.pack, packOne]
            rw [if_neg (by unfold maxMsgSize; omega)]
            simp [hpk]
          simp only [Echo.accepts] at hacc
          split at hacc
          · exfalso
            revert hacc
            (try split) <;> simp_all
          · omega

/-- Nothing goes on. -/
def Echo.AtRest (limit : Nat) (s : Echo) : Prop :=
  (s.up.tx.Quiet ∧ s.up.rx.Quiet limit ∧ s.up.off = s.up.tx.wire.length) ∧ (s.down.tx.Quiet ∧ s.down.rx.Quiet limit ∧ s.down.off = s.down.tx.wire.length)

theorem Pipe.Internal_not_send {a : PAct} (h : a.Internal) : a.isOtherSend = false := by
  cases a with
  | send _ _ => exact absurd h (by simp [PAct.Internal])
  | _ => rfl

/-- If the answers did not all arrive, something goes on, and it is not a refusal or an idle poll. -/
theorem Echo.progress {c : Cfg} (hv : c.Valid) (hr : c.bufSize < 256 ^ c.headLen) (nd cwf : Bool) {st2 : Bool} {batch limit sendLimit : Nat} (hlim : 0 < limit) (hsl : 0 < sendLimit) {s : Echo} {es : List EEv}
    (h : s.Good c true st2 batch limit es) (hq : ¬ s.AtRest limit) :
    ∃ a s' fs, EAct.Internal a ∧ a.Honest ∧ s.step c nd cwf batch limit sendLimit a = some (s', fs) ∧ s'.work c < s.work c := by
  have hw0 : 0 < Echo.weight c := by unfold Echo.weight; omega
  by_cases hd : s.down.tx.Quiet ∧ s.down.rx.Quiet limit ∧ s.down.off = s.down.tx.wire.length
  · have hu : ¬ (s.up.tx.Quiet ∧ s.up.rx.Quiet limit ∧ s.up.off = s.up.tx.wire.length) := fun hu => hq ⟨hu, hd⟩
    obtain ⟨a, u, fs, a1, a2, a3, a4⟩ := Pipe.progress hv nd cwf hlim h.up hu
    cases hret : a.isRet with
    | false =>
      refine ⟨.up a, { s with up := u }, fs.map .up, a1, a2, by simp [Echo.step, hret, a3], ?_⟩
      simp only [Echo.work]
      have := Nat.mul_lt_mul_of_pos_left a4 hw0
      omega
    | true =>
      obtain ⟨q1, q2⟩ := h.down.quiet_empty hd.1
      have ha : a = .rx (.ret true) := by
        cases a with
        | rx b =>
          cases b with
          | ret ok => simp only [PAct.Internal] at a1; rw [a1]
          | _ => simp [PAct.isRet] at hret
        | _ => simp [PAct.isRet] at hret
      subst ha
      have hcur : ∃ m, s.up.rx.cur = some m := by
        cases hm : s.up.rx.cur with
        | some m => exact ⟨m, rfl⟩
        | none =>
          exfalso
          have hbad := (Pipe.step_good hv hr h.up a2 a3).rx_inv.bad
          simp only [Pipe.step, RAct.healthy, if_true, Rx.step, hm] at a3
          split at a3
          · simp at a3
          · simp at a3
            rw [← a3.1] at hbad
            simp at hbad
      obtain ⟨m, hm⟩ := hcur
      obtain ⟨b, b1, b2, b3⟩ := h.up.cur_mem hm
      have hsm := h.up.small b b2
      simp only [seen, if_true] at b3
      subst b3
      have hpk := packHeader_ok c nd m.length (by have := c.headLen_pos; omega) (by omega)
      have hok : (SendCall.one m).pack c nd ≠ some none := by
        simp only [SendCall.pack, packOne]
        rw [if_neg (by unfold maxMsgSize; omega)]
        simp [hpk]
      obtain ⟨d, d1, _⟩ := Pipe.step_send_one hv hr (cwf := cwf) h.down m hok
      have hacc : Echo.accepts c nd sendLimit s.down m = true := by
        simp only [Echo.accepts, q2]
        rw [if_pos hsl]
      have hst : s.step c nd cwf batch limit sendLimit .echo = some (⟨u, d⟩, [PEv.sent m].map .down ++ fs.map .up) := by
        simp [Echo.step, hm, hacc, d1, a3]
      refine ⟨.echo, _, _, trivial, trivial, hst, ?_⟩
      rcases Echo.step_work hv hr h (a := .echo) trivial hst with hw | hw | hw
      · exact hw.1
      · exact absurd hw.1 (by simp [EAct.isPoll])
      · exact absurd hw.2.2.2 (by rw [q2]; omega)
  · obtain ⟨a, u, fs, a1, a2, a3, a4⟩ := Pipe.progress hv nd cwf hlim h.down hd
    refine ⟨.down a, { s with down := u }, fs.map .down, a1, trivial, by simp [Echo.step, Pipe.Internal_not_send a1, a3], ?_⟩
    simp only [Echo.work]
    omega

/-! ### memory -/

theorem Tx.healthy_buffer {batch : Nat} {s s' : Tx} {a : TxAct} {es : List TxEv} (h : s.Inv) (ha : a.healthy = true) (hs : s.step batch a = some (s', es)) :
    sumSize TxMsg.sz s'.q.items ≤ sumSize TxMsg.sz s.q.items := by
  cases a with
  | strand =>
    simp only [Tx.step, Tx.strand] at hs
    split at hs
    · cases hs
    · split at hs <;> (cases hs; exact Nat.le_refl _)
    · obtain ⟨p, p1, p2, p3⟩ := moveOutBytes_spec s.q h.exact s.sendingMsgs batch
      have : sumSize TxMsg.sz (s.q.moveOutBytes TxMsg.sz s.sendingMsgs batch).1.items ≤ sumSize TxMsg.sz s.q.items := by
        rw [congrArg (sumSize TxMsg.sz) p2, sumSize_append]; omega
      split at hs <;> (cases hs; exact this)
    · cases hs; exact Nat.le_refl _
    · cases hs; exact Nat.le_refl _
    · cases hs; exact Nat.le_refl _
  | transfer i k =>
    simp only [Tx.step, Option.bind_eq_bind] at hs
    rw [Option.bind_eq_some_iff] at hs
    obtain ⟨w, hw, hs⟩ := hs
    split at hs <;> (cases hs; try exact Nat.le_refl _)
  | complete i ok =>
    simp only [Tx.step, Option.bind_eq_bind] at hs
    rw [Option.bind_eq_some_iff] at hs
    obtain ⟨w, hw, hs⟩ := hs
    split at hs <;> (cases hs; try exact Nat.le_refl _)
  | handler i =>
    simp only [Tx.step, Option.bind_eq_bind] at hs
    rw [Option.bind_eq_some_iff] at hs
    obtain ⟨w, hw, hs⟩ := hs
    split at hs
    · cases hs
    · simp only [Tx.handler, Option.some.injEq] at hs
      split at hs <;> (cases hs; exact Nat.le_refl _)
  | loadReady => simp only [Tx.step] at hs; split at hs <;> (cases hs; try exact Nat.le_refl _)
  | loadFlag => simp only [Tx.step] at hs; split at hs <;> (cases hs; try exact Nat.le_refl _)
  | runPosted => simp only [Tx.step] at hs; split at hs <;> (cases hs; try exact Nat.le_refl _)
  | _ => simp [TxAct.healthy] at ha

theorem visible_bytes (st : Bool) (hl : Nat) (l : List Bytes) : sumSize rsz (visible hl st l) ≤ l.flatten.length := by
  induction l with
  | nil => simp [visible, sumSize]
  | cons f l ih =>
    simp only [visible] at *
    rw [List.flatten_cons, List.length_append]
    by_cases hf : hl < f.length
    · rw [List.filter_cons_of_pos (by simpa using hf), List.map_cons]
      simp only [sumSize, List.map_cons, List.sum_cons] at ih ⊢
      have : rsz (if st = true then f.drop hl else f) ≤ f.length := by unfold rsz; split <;> simp
      omega
    · rw [List.filter_cons_of_neg (by simpa using hf)]
      omega

theorem newMsgs_error (l : List RxEvent) (ms : List Bytes) : newMsgs l (l ++ msgs ms ++ [.unpackError]) = ms := by
  have h := newMsgs_append l ms
  unfold newMsgs at *
  rw [List.append_assoc, List.drop_left] at *
  rw [List.filterMap_append, h]
  simp

theorem frameDec_bytes {hl maxLen : Nat} {st : Bool} {x : Bytes} {ms : List Bytes} {q : Option Bytes} (h : frameDec hl maxLen st x = (ms, q)) : sumSize rsz ms ≤ x.length := by
  simp only [frameDec, Prod.mk.injEq] at h
  obtain ⟨h1, _⟩ := h
  have hf := congrArg List.length (frames_flatten hl maxLen x)
  rw [List.length_append] at hf
  rw [← h1]
  exact Nat.le_trans (visible_bytes st hl _) (by omega)

/-- The receive buffer stays within its limit plus one read. -/
theorem Pipe.step_rx_bnd {c : Cfg} (hv : c.Valid) {nd cwf : Bool} {st : Bool} {batch limit : Nat} (hsz : limit + c.bufSize < 2 ^ 64) {s s' : Pipe} {a : PAct} {es fs : List PEv} (h : s.Good c st batch limit es)
    (hb : Rx.Bnd limit c.bufSize 1 s.rx) (hs : s.step c nd cwf batch limit a = some (s', fs)) : Rx.Bnd limit c.bufSize 1 s'.rx := by
  cases a with
  | send call fits =>
    simp only [Pipe.step] at hs
    split at hs <;> (cases hs; exact hb)
  | tx a =>
    simp only [Pipe.step] at hs
    split at hs
    · rw [Option.map_eq_some_iff] at hs
      obtain ⟨r, _, hs⟩ := hs
      cases hs; exact hb
    · cases hs
  | rx a =>
    simp only [Pipe.step] at hs
    split at hs
    · next hh =>
      rw [Option.map_eq_some_iff] at hs
      obtain ⟨⟨t, res⟩, h1, hs⟩ := hs
      cases hs
      have := Rx.step_bnd h.rx_inv hb (by intro ms hm; subst hm; simp [RAct.healthy] at hh) (by omega) h1
      have hl : rLinks [a] = 0 := by cases a <;> first | rfl | simp [RAct.healthy] at hh
      rw [hl] at this
      exact this
    · cases hs
  | net k =>
    obtain ⟨ras, res, r1, r2, r3, r4, p, r5, r6⟩ := h.rx
    simp only [Pipe.step] at hs
    split at hs
    · next cap got want hrd hph =>
      split at hs
      · next hk =>
        obtain ⟨k0, k1, k2, k3⟩ := hk
        have hdl : ((s.tx.wire.drop s.off).take k).length = k := by rw [List.length_take, List.length_drop]; omega
        generalize hd : (s.tx.wire.drop s.off).take k = d at *
        obtain ⟨conn, hc, hm⟩ := (unpacker_simulates c hv st cwf).step s.conn p cap got want d r6 hph
          (by intro h0; rw [h0] at hdl; simp at hdl; omega) (by omega) (by omega)
        have hp0 := r6.pend_eq
        obtain ⟨got', g1, g2, g3⟩ := r6.ph
        rw [g1] at hph
        simp only [RxPhase.reading.injEq] at hph
        obtain ⟨rfl, rfl, rfl⟩ := hph
        simp only [Pipe.pend, g1] at hp0
        rw [hc] at hs
        simp only at hs
        split at hs
        · rw [Option.map_eq_some_iff] at hs
          obtain ⟨⟨t, tes⟩, h1, h2⟩ := hs
          cases h2
          have hlen : sumSize rsz (newMsgs s.conn.log conn.log) ≤ c.bufSize := by
            cases hdec : frameDec c.headLen c.bufSize st (p ++ d) with
            | mk ms q =>
              have hbt := frameDec_bytes hdec
              rw [List.length_append, hdl] at hbt
              rw [hdec] at hm
              cases q with
              | none =>
                simp only at hm
                rw [hm.1, newMsgs_error]
                omega
              | some q =>
                simp only at hm
                rw [hm.1, newMsgs_append]
                omega
          have := Rx.step_bnd h.rx_inv hb (by intro ms hm; simp only [RAct.read.injEq] at hm; rw [← hm]; exact hlen) (by omega) h1
          exact this
        · cases hs; exact hb
      · cases hs
    · cases hs

def Echo.MemBound (c : Cfg) (limit sendLimit : Nat) (s : Echo) : Prop :=
  sumSize TxMsg.sz s.down.tx.q.items ≤ sendLimit - 1 + c.bufSize ∧ Rx.Bnd limit c.bufSize 1 s.up.rx

theorem Echo.step_mem {c : Cfg} (hv : c.Valid) (hr : c.bufSize < 256 ^ c.headLen) {nd cwf : Bool} {st1 st2 : Bool} {batch limit sendLimit : Nat} (hsz : limit + c.bufSize < 2 ^ 64)
    (hsz2 : sendLimit + c.bufSize < 2 ^ 64) {s s' : Echo} {a : EAct} {es fs : List EEv} (h : s.Good c st1 st2 batch limit es) (hb : ∀ fits, a ≠ .down (.send .heartbeat fits))
    (hs : s.step c nd cwf batch limit sendLimit a = some (s', fs)) (hm : s.MemBound c limit sendLimit) : s'.MemBound c limit sendLimit := by
  cases a with
  | up a =>
    simp only [Echo.step] at hs
    split at hs
    · cases hs
    · rw [Option.map_eq_some_iff] at hs
      obtain ⟨⟨t, tes⟩, h1, h2⟩ := hs
      cases h2
      exact ⟨hm.1, Pipe.step_rx_bnd hv hsz h.up hm.2 h1⟩
  | down a =>
    simp only [Echo.step] at hs
    split at hs
    · cases hs
    · next hot =>
      rw [Option.map_eq_some_iff] at hs
      obtain ⟨⟨t, tes⟩, h1, h2⟩ := hs
      cases h2
      refine ⟨?_, hm.2⟩
      have hle : sumSize TxMsg.sz t.tx.q.items ≤ sumSize TxMsg.sz s.down.tx.q.items := by
        cases a with
        | send call fits =>
          cases call with
          | heartbeat => exact absurd rfl (hb fits)
          | _ => simp [PAct.isOtherSend] at hot
        | tx a =>
          simp only [Pipe.step] at h1
          split at h1
          · next hh =>
            rw [Option.map_eq_some_iff] at h1
            obtain ⟨⟨r, res⟩, q1, q2⟩ := h1
            cases q2
            exact Tx.healthy_buffer h.down.tx_inv hh q1
          · cases h1
        | rx a =>
          simp only [Pipe.step] at h1
          split at h1
          · rw [Option.map_eq_some_iff] at h1
            obtain ⟨r, q1, q2⟩ := h1
            cases q2
            exact Nat.le_refl _
          · cases h1
        | net k =>
          simp only [Pipe.step] at h1
          split at h1
          · split at h1
            · split at h1
              · cases h1; exact Nat.le_refl _
              · split at h1
                · rw [Option.map_eq_some_iff] at h1
                  obtain ⟨r, q1, q2⟩ := h1
                  cases q2
                  exact Nat.le_refl _
                · cases h1; exact Nat.le_refl _
            · cases h1
          · cases h1
      exact Nat.le_trans hle hm.1
  | echo =>
    simp only [Echo.step] at hs
    split at hs
    · cases hs
    · next m hcur =>
      split at hs
      · next hacc =>
        have hpack : (SendCall.one m).pack c nd ≠ some none := by
          intro hp
          simp only [Echo.accepts, hp] at hacc
          split at hacc <;> simp at hacc
        have hav : s.down.tx.q.total < sendLimit := by
          unfold Echo.accepts at hacc
          split at hacc
          · assumption
          · simp at hacc
        obtain ⟨d, d1, d2, d3, head, d4, d5, d6, d7⟩ := Pipe.step_send_one hv hr (cwf := cwf) h.down m hpack
        rw [d1] at hs
        simp only [Option.bind_eq_bind, Option.bind_some] at hs
        rw [Option.bind_eq_some_iff] at hs
        obtain ⟨⟨u, ues⟩, u1, u2⟩ := hs
        cases u2
        refine ⟨?_, Pipe.step_rx_bnd hv hsz h.up hm.2 u1⟩
        have he := h.down.tx_inv.exact
        rw [Q.Exact, Nat.mod_eq_of_lt (by have := hm.1; omega)] at he
        have hit : (s.down.tx.sendList [⟨head, none⟩, ⟨m, none⟩] false).1.q.items = s.down.tx.q.items ++ [⟨head, none⟩, ⟨m, none⟩] := by
          have hbad := (Tx.step_inv (batch := 0) (a := .sendList [⟨head, none⟩, ⟨m, none⟩] false) h.down.tx_inv (s' := (s.down.tx.sendList [⟨head, none⟩, ⟨m, none⟩] false).1)
            (es := (s.down.tx.sendList [⟨head, none⟩, ⟨m, none⟩] false).2) rfl).1.bad
          simp only [Tx.sendList, Bool.false_eq_true, if_false] at *
          split
          · next h => simp [h] at hbad
          · next q h =>
            simp only [Q.moveIn, Option.bind_eq_bind] at h
            rw [Option.bind_eq_some_iff] at h
            obtain ⟨n, _, h⟩ := h
            simp only [Option.pure_def, Option.some.injEq] at h
            rw [← h]
        simp only [d5, hit, sumSize_append]
        simp only [sumSize, List.map_cons, List.map_nil, List.sum_cons, List.sum_nil, TxMsg.sz] at he ⊢
        omega
      · simp only [Option.bind_eq_bind] at hs
        rw [Option.bind_eq_some_iff] at hs
        obtain ⟨⟨u, ues⟩, u1, u2⟩ := hs
        cases u2
        exact ⟨hm.1, Pipe.step_rx_bnd hv hsz h.up hm.2 u1⟩

theorem Echo.run_mem {c : Cfg} (hv : c.Valid) (hr : c.bufSize < 256 ^ c.headLen) {nd cwf : Bool} {st1 st2 : Bool} {batch limit sendLimit : Nat} (hsz : limit + c.bufSize < 2 ^ 64)
    (hsz2 : sendLimit + c.bufSize < 2 ^ 64) {s s' : Echo} {as : List EAct} {es fs : List EEv} (h : s.Good c st1 st2 batch limit es) (ha : ∀ a ∈ as, a.Honest)
    (hb : ∀ fits, EAct.down (.send .heartbeat fits) ∉ as) (hrun : Echo.Run c nd cwf batch limit sendLimit s as s' fs) (hm : s.MemBound c limit sendLimit) : s'.MemBound c limit sendLimit := by
  induction hrun with
  | nil => exact hm
  | snoc s1 s2 as a es1 fs1 hr1 hs ih =>
    have ih := ih (fun x hx => ha x (by simp [hx])) (fun f hf => hb f (by simp [hf]))
    exact Echo.step_mem hv hr hsz hsz2 (Echo.run_good hv hr h (fun x hx => ha x (by simp [hx])) hr1) (fun f hf => hb f (by simp [hf])) hs ih

/-- At rest everything was answered. -/
theorem Echo.Good.rest_answered {c : Cfg} {st2 : Bool} {batch limit : Nat} {s : Echo} {es : List EEv} (h : s.Good c true st2 batch limit es) (hr : s.AtRest limit) :
    answered es = expected c.headLen st2 (asked es) := by
  obtain ⟨e1, e2⟩ := h.up.rest hr.1.1 hr.1.2.1 hr.1.2.2
  obtain ⟨f1, f2⟩ := h.down.rest hr.2.1 hr.2.2.1 hr.2.2.2
  rw [e2, arrived_all] at e1
  rw [f2, arrived_all, expected, h.tie, e1] at f1
  rw [answered, f1]
  simp only [expected, asked]
  rw [show seen c.headLen true = id from by funext b; simp [seen]]
  simp

theorem Echo.step_asked {c : Cfg} {nd cwf : Bool} {batch limit sendLimit : Nat} {s s' : Echo} {a : EAct} {fs : List EEv} (ha : a.Internal)
    (hs : s.step c nd cwf batch limit sendLimit a = some (s', fs)) : asked fs = [] := by
  have key : ∀ (s s' : Pipe) (a : PAct) (fs : List PEv), (∀ call fits, a ≠ .send call fits) → s.step c nd cwf batch limit a = some (s', fs) → sentItems fs = [] := by
    intro s s' a fs hns hs
    cases a with
    | send call fits => exact absurd rfl (hns call fits)
    | tx a =>
      simp only [Pipe.step] at hs
      split at hs
      · rw [Option.map_eq_some_iff] at hs
        obtain ⟨r, _, hs⟩ := hs
        cases hs; rfl
      · cases hs
    | rx a =>
      simp only [Pipe.step] at hs
      split at hs
      · rw [Option.map_eq_some_iff] at hs
        obtain ⟨r, _, hs⟩ := hs
        cases hs; exact (handledItems_rxEv _).2
      · cases hs
    | net k =>
      simp only [Pipe.step] at hs
      split at hs
      · split at hs
        · split at hs
          · cases hs; rfl
          · split at hs
            · rw [Option.map_eq_some_iff] at hs
              obtain ⟨r, _, hs⟩ := hs
              cases hs; exact (handledItems_rxEv _).2
            · cases hs; rfl
        · cases hs
      · cases hs
  cases a with
  | up a =>
    simp only [Echo.step] at hs
    split at hs
    · cases hs
    · rw [Option.map_eq_some_iff] at hs
      obtain ⟨⟨t, tes⟩, h1, h2⟩ := hs
      cases h2
      rw [asked, ups_up]
      exact key _ _ _ _ (by rintro call fits rfl; simp [EAct.Internal, PAct.Internal] at ha) h1
  | down a =>
    simp only [Echo.step] at hs
    split at hs
    · cases hs
    · rw [Option.map_eq_some_iff] at hs
      obtain ⟨⟨t, tes⟩, h1, h2⟩ := hs
      cases h2
      rw [asked, ups_down]
      rfl
  | echo =>
    simp only [Echo.step] at hs
    split at hs
    · cases hs
    · split at hs
      · simp only [Option.bind_eq_bind] at hs
        rw [Option.bind_eq_some_iff] at hs
        obtain ⟨⟨d, des⟩, d1, hs⟩ := hs
        rw [Option.bind_eq_some_iff] at hs
        obtain ⟨⟨u, ues⟩, u1, u2⟩ := hs
        cases u2
        rw [asked, ups_append, ups_down, ups_up, List.nil_append]
        exact key _ _ _ _ (by simp) u1
      · simp only [Option.bind_eq_bind] at hs
        rw [Option.bind_eq_some_iff] at hs
        obtain ⟨⟨u, ues⟩, u1, u2⟩ := hs
        cases u2
        rw [asked, ups_up]
        exact key _ _ _ _ (by simp) u1

theorem Echo.drain {c : Cfg} (hv : c.Valid) (hr : c.bufSize < 256 ^ c.headLen) {nd cwf : Bool} {st2 : Bool} {batch limit sendLimit : Nat} (hlim : 0 < limit) (hsl : 0 < sendLimit) :
    ∀ (n : Nat) (s : Echo) (es : List EEv), s.Good c true st2 batch limit es → s.work c ≤ n →
      ∃ bs s' fs, Echo.Run c nd cwf batch limit sendLimit s bs s' fs ∧ (∀ b ∈ bs, b.Internal) ∧ answered (es ++ fs) = expected c.headLen st2 (asked es) := by
  intro n
  induction n with
  | zero =>
    intro s es hg hw
    rcases Classical.em (s.AtRest limit) with hq | hq
    · exact ⟨[], s, [], Echo.Run.nil s, by simp, by rw [List.append_nil]; exact hg.rest_answered hq⟩
    · obtain ⟨a, s', fs, a1, a2, a3, a4⟩ := Echo.progress hv hr nd cwf hlim hsl hg hq
      omega
  | succ n ih =>
    intro s es hg hw
    rcases Classical.em (s.AtRest limit) with hq | hq
    · exact ⟨[], s, [], Echo.Run.nil s, by simp, by rw [List.append_nil]; exact hg.rest_answered hq⟩
    · obtain ⟨a, s', fs, a1, a2, a3, a4⟩ := Echo.progress hv hr nd cwf hlim hsl hg hq
      obtain ⟨bs, s2, gs, b1, b2, b3⟩ := ih s' _ (Echo.step_good hv hr hg a2 a3) (by omega)
      have hns := Echo.step_asked a1 a3
      have has : asked (es ++ fs) = asked es := by
        simp only [asked] at *
        rw [ups_append, sentItems_append, hns, List.append_nil]
      refine ⟨[a] ++ bs, s2, fs ++ gs, Echo.run_trans (Echo.run_one a3) b1, ?_, ?_⟩
      · intro b hb
        simp at hb
        rcases hb with rfl | hb
        · exact a1
        · exact b2 b hb
      · rw [← List.append_assoc, b3, has]

end StAsio
