import Verif.Lemmas.Handshake
/-!
C50: links with handshakes (include/tcp/ssl/ssl.h, include/tcp/websocket/websocket.h, include/tcp/websocket/ssl/ssl.h). `L` is the number of handshakes: 1 for SSL and for websockets, 2 for SSL websockets.

`.onClose true` is the end of closing while a thread of the user is between the two halves of send_msg() since before the link broke; C50_early_send_race shows what it can do.
-/
set_option autoImplicit false
namespace StAsio

/-- **C50** (on_connect): whenever on_connect is called, the last things that happened to the link are a new TCP connection and the success of all its handshakes, in order. -/
theorem C50_on_connect_after_handshake {client rc : Bool} {L : Nat} (hL : 1 ≤ L) {s : Hk} {as : List HkAct} {es e1 e2 : List HkEv} (hr : Hk.Run client L (Hk.init rc) as s es)
    (he : es = e1 ++ .onConnect :: e2) : JustAfter L (linkEvents e1) :=
  (Hk.run_ev hL hr).ok e1 e2 he

/-- **C50** (ready): whenever the link is ready, the last things that happened to it are a new TCP connection, the success of all its handshakes, in order, and on_connect. -/
theorem C50_ready_after_handshake {client rc : Bool} {L : Nat} (hL : 1 ≤ L) {s : Hk} {as : List HkAct} {es : List HkEv} (hr : Hk.Run client L (Hk.init rc) as s es)
    (hc : s.status = .connected) : ∃ pre, linkEvents es = pre ++ handshakesOk L ++ [.onConnect] :=
  (Hk.run_ev hL hr).conE hc

/-- **C50** (failure): if a handshake of the current attempt failed, the link is not ready and no handshake or connection attempt is in progress; if the socket is not closed yet a forced shutdown is pending;
and the pending calls lead to on_close (unless it was called already). -/
theorem C50_failed_leads_to_shutdown {client rc : Bool} {L : Nat} (hL : 1 ≤ L) {s : Hk} {as : List HkAct} {es : List HkEv} (hr : Hk.Run client L (Hk.init rc) as s es) (hf : attemptFailed es = true) :
    s.status ≠ .connected ∧ s.hs = none ∧ s.connecting = false ∧ (s.started = true → 0 < s.force) ∧
      ((s.started = false ∧ s.closing = false ∧ s.status = .broken) ∨
        ∃ bs s' fs, Hk.Run client L s bs s' fs ∧ .onClose ∈ fs ∧ ∀ b ∈ bs, b = .runForce ∨ b = .runShut ∨ b = .post ∨ b = .runSend true ∨ b = .onClose false) := by
  obtain ⟨h1, h2, h3, h4⟩ := (Hk.run_ev hL hr).fl hf
  have ho := Hk.run_ok hL hr
  refine ⟨h1, h2, h3, h4, ?_⟩
  -- when closed
  have fin : ∀ n (t : Hk), t.shut + 2 * t.atPost + t.posted = n → t.closing = true → t.hs = none → t.connecting = false →
      ∃ bs s' fs, Hk.Run client L t bs s' fs ∧ .onClose ∈ fs ∧ ∀ b ∈ bs, b = .runForce ∨ b = .runShut ∨ b = .post ∨ b = .runSend true ∨ b = .onClose false := by
    intro n
    induction n with
    | zero =>
      intro t ht hc h5 h6
      have hst : ∃ t' gs, t.step client L (.onClose false) = some (t', .onClose :: gs) := by
        simp only [Hk.step]
        rw [if_pos ⟨hc, h6, h5, by omega, by omega, by simp; omega⟩]
        exact ⟨_, _, rfl⟩
      obtain ⟨t', gs, hst⟩ := hst
      exact ⟨_, _, _, Hk.run_one hst, by simp, by simp⟩
    | succ n ih =>
      intro t ht hc h5 h6
      by_cases hq : 0 < t.shut
      · obtain ⟨bs, s', fs, g1, g2, g3⟩ := ih { t with shut := t.shut - 1, atimer := true } (by simp only; omega) hc h5 h6
        refine ⟨_, _, _, Hk.run_trans (Hk.run_one (a := .runShut) (by simp [Hk.step, hq]; rfl)) g1, by simp [g2], ?_⟩
        intro b hb
        simp at hb
        rcases hb with rfl | hb
        · simp
        · exact g3 b hb
      · by_cases hq2 : 0 < t.posted
        · obtain ⟨bs, s', fs, g1, g2, g3⟩ := ih { t with posted := t.posted - 1 } (by simp only; omega) hc h5 h6
          refine ⟨_, _, _, Hk.run_trans (Hk.run_one (a := .runSend true) (by simp [Hk.step, hq2]; rfl)) g1, by simp [g2], ?_⟩
          intro b hb
          simp at hb
          rcases hb with rfl | hb
          · simp
          · exact g3 b hb
        · have hq3 : 0 < t.atPost := by omega
          obtain ⟨bs, s', fs, g1, g2, g3⟩ := ih { t with atPost := t.atPost - 1, posted := t.posted + 1 } (by simp only; omega) hc h5 h6
          refine ⟨_, _, _, Hk.run_trans (Hk.run_one (a := .post) (by simp [Hk.step, hq3]; rfl)) g1, by simp [g2], ?_⟩
          intro b hb
          simp at hb
          rcases hb with rfl | hb
          · simp
          · exact g3 b hb
  by_cases hst : s.started = true
  · right
    have hf := h4 hst
    have hnf : s.status ≠ .forceDown := fun h => by have := ho.fd h; rw [hst] at this; cases this
    have hstep : ∃ s1, s.step client L .runForce = some (s1, []) ∧ s1.closing = true ∧ s1.hs = none ∧ s1.connecting = false := by
      simp only [Hk.step, Hk.forceShutdown, Hk.close, hf, if_true, hnf, if_false, hst]
      split
      · exact ⟨_, rfl, rfl, h2, h3⟩
      · exact ⟨_, rfl, rfl, h2, h3⟩
    obtain ⟨s1, g0, g1, g2, g3⟩ := hstep
    obtain ⟨bs, s', fs, k1, k2, k3⟩ := fin _ s1 rfl g1 g2 g3
    refine ⟨_, _, _, Hk.run_trans (Hk.run_one g0) k1, by simpa using k2, ?_⟩
    intro b hb
    simp at hb
    rcases hb with rfl | hb
    · simp
    · exact k3 b hb
  · by_cases hc : s.closing = true
    · exact Or.inr (fin _ s rfl hc h2 h3)
    · refine Or.inl ⟨by simpa using hst, by simpa using hc, ?_⟩
      have hup := ho.up
      cases hq : s.status with
      | broken => rfl
      | _ => simp [hq, hst, hc] at hup

/-- The actions by which a user asks for another attempt. -/
def HkAct.asksAgain : HkAct → Bool
  | .start | .shutdown true | .setReconnect true => true
  | _ => false

/-- **C50** (failure is final): after a failed handshake there is no new connection attempt, no on_connect and no ready link until the user asks for one: reconnecting is switched off, too. -/
theorem C50_failed_is_final {client rc : Bool} {L : Nat} (hL : 1 ≤ L) {s s1 s2 : Hk} {as bs : List HkAct} {es fs gs : List HkEv} (hr : Hk.Run client L (Hk.init rc) as s es)
    (hh : s.step client L (.handshakeDone false) = some (s1, fs)) (hr' : Hk.Run client L s1 bs s2 gs) (hb : ∀ b ∈ bs, b.asksAgain = false) :
    s2.status ≠ .connected ∧ s2.hs = none ∧ s2.connecting = false ∧ (client = true → s2.reconnect = false) ∧ .start ∉ gs ∧ .tcpUp ∉ gs ∧ .onConnect ∉ gs := by
  have hr1 := Hk.Run.snoc _ _ _ _ _ _ _ hr hh
  have hf1 : attemptFailed (es ++ fs) = true := by
    simp only [Hk.step, Hk.handleHandshake] at hh
    split at hh
    · cases hh
    · rename_i i hi
      have h4 := (Hk.run_ok hL hr).hsl i hi
      simp only [Hk.userShutdown, Hk.tcpForce] at hh
      simp at hh
      split at hh
      · rename_i h; exact absurd h h4.2.2.1
      · split at hh <;> (simp at hh; obtain ⟨_, rfl⟩ := hh; simp [attemptFailed_append, attemptStep])
  have hrc : client = true → s1.reconnect = false := by
    intro hc
    simp only [Hk.step, Hk.handleHandshake] at hh
    split at hh
    · cases hh
    · simp only [Hk.userShutdown, Hk.tcpForce] at hh
      simp [hc] at hh
      split at hh <;> (simp at hh; obtain ⟨rfl, _⟩ := hh; rfl)
  suffices H : attemptFailed (es ++ fs ++ gs) = true ∧ (client = true → s2.reconnect = false) ∧ .start ∉ gs ∧ .tcpUp ∉ gs ∧ .onConnect ∉ gs by
    obtain ⟨h1, h2, h3, h4, h5⟩ := H
    obtain ⟨g1, g2, g3, _⟩ := (Hk.run_ev hL (Hk.run_trans hr1 hr')).fl h1
    exact ⟨g1, g2, g3, h2, h3, h4, h5⟩
  clear hh
  induction hr' with
  | nil => exact ⟨by simpa using hf1, hrc, by simp, by simp, by simp⟩
  | snoc s2 s3 bs b gs ks hr' hs ih =>
    obtain ⟨h1, h2, h3, h4, h5⟩ := ih (fun b hb' => hb b (by simp [hb']))
    have hb := hb b (by simp)
    have hrt := Hk.run_trans hr1 hr'
    obtain ⟨g1, g2, g3, g4⟩ := (Hk.run_ev hL hrt).fl h1
    have key : (client = true → s3.reconnect = false) ∧ .start ∉ ks ∧ .tcpUp ∉ ks ∧ .onConnect ∉ ks ∧ ∀ x ∈ ks, x = .onClose ∨ x = .handOff := by
      cases b with
      | start => simp [HkAct.asksAgain] at hb
      | connectDone => simp [Hk.step, g3] at hs
      | handshakeDone ok => simp [Hk.step, g2] at hs
      | shutdown r =>
        have : r = false := by cases r <;> simp [HkAct.asksAgain] at hb ⊢
        subst this
        simp only [Hk.step, Hk.userShutdown, Hk.tcpForce] at hs
        cases hcl : client <;> grind
      | setReconnect r =>
        have : r = false := by cases r <;> simp [HkAct.asksAgain] at hb ⊢
        subst this
        simp only [Hk.step] at hs
        grind
      | onClose busy =>
        simp only [Hk.step, Hk.start] at hs
        cases hcl : client <;> grind
      | connectFail sni again => simp [Hk.step, g3] at hs
      | runForce =>
        simp only [Hk.step, Hk.forceShutdown, Hk.close] at hs
        grind
      | runSend any =>
        simp only [Hk.step] at hs
        grind
      | _ =>
        simp only [Hk.step] at hs
        grind
    refine ⟨?_, key.1, by simp [h3, key.2.1], by simp [h4, key.2.2.1], by simp [h5, key.2.2.2.1]⟩
    rw [← List.append_assoc, attemptFailed_append, h1]
    have hk := key.2.2.2.2
    clear key hs
    induction ks with
    | nil => rfl
    | cons x ks ih =>
      rcases hk x (by simp) with rfl | rfl <;> exact ih (fun y hy => hk y (by simp [hy]))

/-- The invariant for sending. -/
structure Hk.Snd (L : Nat) (s : Hk) (es : List HkEv) : Prop where
  idle : s.posted ≠ 0 ∨ s.atPost ≠ 0 → (s.started = true ∨ s.closing = true) ∧ s.hs = none ∧ s.connecting = false
  hsE : ∀ i, s.hs = some i → JustAfter i es
  est : s.status = .connected ∨ s.posted ≠ 0 ∨ s.atPost ≠ 0 → Established L es
  ok : ∀ e1 e2, es = e1 ++ .handOff :: e2 → Established L e1

theorem Hk.step_snd {client : Bool} {L : Nat} {s s' : Hk} {a : HkAct} {es fs : List HkEv} (h : s.Ok client L) (he : s.Snd L es) (ha : a ≠ .onClose true) (hs : s.step client L a = some (s', fs)) :
    s'.Snd L (es ++ fs) := by
  obtain ⟨e1, e2, e3, e4⟩ := he
  obtain ⟨h1, h2, h3, h4, h5⟩ := h
  have noH : HkEv.handOff ∉ fs → ∀ f1 f2, es ++ fs = f1 ++ .handOff :: f2 → Established L f1 := by
    intro hn f1 f2 hf
    rcases split_append hf with ⟨r, hr⟩ | ⟨r, _, hr⟩
    · exact e4 _ _ hr
    · exact absurd (by rw [hr]; simp) hn
  have quiet : fs = [] → (s'.posted ≠ 0 ∨ s'.atPost ≠ 0 → s.status = .connected ∨ s.posted ≠ 0 ∨ s.atPost ≠ 0) →
      (s'.posted ≠ 0 ∨ s'.atPost ≠ 0 → (s'.started = true ∨ s'.closing = true) ∧ s'.hs = none ∧ s'.connecting = false) → (s'.hs = s.hs) →
      (s'.status = .connected → s.status = .connected) → s'.Snd L (es ++ fs) := by
    intro q1 q2 q3 q4 q5
    subst q1
    rw [List.append_nil]
    refine ⟨q3, by rw [q4]; exact e2, ?_, e4⟩
    rintro (hc | hp)
    · exact e3 (Or.inl (q5 hc))
    · exact e3 (q2 hp)
  have hch : s.status = .connected → s.hs = none := by
    intro hc
    cases hq : s.hs with
    | none => rfl
    | some i => exact absurd hc (h4 i hq).2.2.1
  have busy : HkEv.handOff ∉ fs → s'.posted = 0 → s'.atPost = 0 → s'.status ≠ .connected → (∀ i, s'.hs = some i → JustAfter i (es ++ fs)) → s'.Snd L (es ++ fs) := by
    intro q1 q2 q3 q4 q5
    exact ⟨by simp [q2, q3], q5, by simp [q2, q3, q4], noH q1⟩
  cases a with
  | start =>
    simp only [Hk.step, Hk.start] at hs
    repeat' split at hs
    all_goals (simp only [Option.some.injEq, Prod.mk.injEq] at hs; obtain ⟨rfl, rfl⟩ := hs)
    · exact quiet rfl Or.inr e1 rfl id
    · exact busy (by simp) (by grind) (by grind) (by grind) (by grind)
    · refine busy (by simp) (by grind) (by grind) (by grind) ?_
      intro i hi
      cases hi
      exact ⟨es ++ [.start], by simp [handshakesOk]⟩
  | connectDone =>
    simp only [Hk.step] at hs
    split at hs
    · simp only [Option.some.injEq, Prod.mk.injEq] at hs; obtain ⟨rfl, rfl⟩ := hs
      refine busy (by simp) (by grind) (by grind) (by grind) ?_
      intro i hi
      cases hi
      exact ⟨es, by simp [handshakesOk]⟩
    · cases hs
  | handshakeDone ok =>
    simp only [Hk.step] at hs
    split at hs
    · cases hs
    · rename_i i hi
      have h4 := h4 i hi
      obtain ⟨pre, hp⟩ := e2 i hi
      simp only [Hk.handleHandshake, Hk.userShutdown, Hk.tcpForce] at hs
      split at hs
      · split at hs
        · simp only [Option.some.injEq, Prod.mk.injEq] at hs; obtain ⟨rfl, rfl⟩ := hs
          refine busy (by simp) (by grind) (by grind) (by grind) ?_
          intro j hj
          cases hj
          exact ⟨pre, by rw [hp, handshakesOk_succ]; simp⟩
        · simp only [Option.some.injEq, Prod.mk.injEq] at hs; obtain ⟨rfl, rfl⟩ := hs
          have hil : i + 1 = L := by omega
          refine ⟨?_, by simp, fun _ => ⟨pre, 0, by rw [hp, ← hil, handshakesOk_succ]; simp⟩, noH (by simp)⟩
          intro _
          exact ⟨h1 (Or.inr (Or.inl (by simp [hi]))), rfl, h4.2.1⟩
      · repeat' split at hs
        all_goals (simp only [Option.some.injEq, Prod.mk.injEq] at hs; obtain ⟨rfl, rfl⟩ := hs)
        all_goals first
          | (refine busy ?_ ?_ ?_ ?_ ?_ <;> grind)
          | grind
  | shutdown r =>
    simp only [Hk.step, Hk.userShutdown, Hk.tcpForce, Hk.start] at hs
    repeat' split at hs
    all_goals (simp only [Option.some.injEq, Prod.mk.injEq] at hs; obtain ⟨rfl, rfl⟩ := hs)
    all_goals first
      | (refine quiet rfl ?_ ?_ rfl ?_ <;> grind)
      | (refine busy ?_ ?_ ?_ ?_ ?_ <;> grind)
      | grind
  | onClose b =>
    have : b = false := by cases b <;> simp at ha ⊢
    subst this
    simp only [Hk.step, Hk.start] at hs
    repeat' split at hs
    all_goals first
      | (cases hs; done)
      | (simp only [Option.some.injEq, Prod.mk.injEq] at hs; obtain ⟨rfl, rfl⟩ := hs)
    all_goals first
      | (refine busy ?_ ?_ ?_ ?_ ?_ <;> grind)
      | grind
  | runSend any =>
    simp only [Hk.step] at hs
    split at hs
    · rename_i hp
      simp only [Option.some.injEq, Prod.mk.injEq] at hs; obtain ⟨rfl, rfl⟩ := hs
      have hpe := e3 (Or.inr (Or.inl (by omega)))
      have hid := e1 (Or.inl (by omega))
      cases any with
      | false =>
        refine quiet (by simp) ?_ ?_ rfl id
        · intro _; exact Or.inr (Or.inl (by omega))
        · intro _; exact hid
      | true =>
        obtain ⟨pre, k, hk⟩ := hpe
        refine ⟨fun _ => hid, by simp [hid.2.1], fun _ => ⟨pre, k + 1, by rw [hk]; simp [List.replicate_succ']⟩, ?_⟩
        intro f1 f2 hf
        rcases split_append hf with ⟨r, hr⟩ | ⟨r, q1, q2⟩
        · exact e4 _ _ hr
        · cases r with
          | nil => rw [q1, List.append_nil]; exact ⟨pre, k, hk⟩
          | cons x r => simp at q2
    · cases hs
  | connectFail sni again =>
    simp only [Hk.step] at hs
    repeat' split at hs
    all_goals first
      | (cases hs; done)
      | (simp only [Option.some.injEq, Prod.mk.injEq] at hs; obtain ⟨rfl, rfl⟩ := hs)
    all_goals (refine quiet rfl ?_ ?_ rfl ?_ <;> grind)
  | runForce =>
    simp only [Hk.step, Hk.forceShutdown, Hk.close] at hs
    repeat' split at hs
    all_goals first
      | (cases hs; done)
      | (simp only [Option.some.injEq, Prod.mk.injEq] at hs; obtain ⟨rfl, rfl⟩ := hs)
    all_goals (refine quiet rfl ?_ ?_ rfl ?_ <;> grind)
  | _ =>
    simp only [Hk.step] at hs
    repeat' split at hs
    all_goals first
      | (cases hs; done)
      | (simp only [Option.some.injEq, Prod.mk.injEq] at hs; obtain ⟨rfl, rfl⟩ := hs)
    all_goals (refine quiet rfl ?_ ?_ rfl ?_ <;> grind)

/-- **C50** (sending): messages are handed to the stream only on an established link: after a new TCP connection, the success of all its handshakes and on_connect, with nothing but sending since.
Missing: the end of closing while a thread is in the middle of send_msg(), see C50_early_send_race. -/
theorem C50_no_early_sending_partial {client rc : Bool} {L : Nat} (hL : 1 ≤ L) {s : Hk} {as : List HkAct} {es e1 e2 : List HkEv} (hr : Hk.Run client L (Hk.init rc) as s es)
    (ha : ∀ a ∈ as, a ≠ .onClose true) (he : es = e1 ++ .handOff :: e2) : Established L e1 := by
  suffices H : s.Snd L es from H.ok e1 e2 he
  clear he
  generalize h0 : Hk.init rc = s0 at hr
  induction hr with
  | nil => subst h0; constructor <;> simp [Hk.init]
  | snoc s1 s2 as a es fs hr hs ih =>
    subst h0
    exact Hk.step_snd (Hk.run_ok hL hr) (ih (fun a h => ha a (by simp [h]))) (ha a (by simp)) hs

/-- A link whose last event is a new connection is not established. -/
theorem not_established (L : Nat) (es : List HkEv) : ¬ Established L (es ++ [.tcpUp]) := by
  rintro ⟨pre, k, hk⟩
  cases k with
  | zero =>
    have := congrArg List.getLast? hk
    rw [List.getLast?_concat, List.replicate_zero, List.getLast?_concat] at this
    cases this
  | succ k =>
    have e : pre ++ handshakesOk L ++ HkEv.onConnect :: List.replicate (k + 1) HkEv.handOff = (pre ++ handshakesOk L ++ HkEv.onConnect :: List.replicate k HkEv.handOff) ++ [.handOff] := by
      rw [List.replicate_succ']; simp
    rw [e] at hk
    have := congrArg List.getLast? hk
    rw [List.getLast?_concat, List.getLast?_concat] at this
    cases this

/-- Sending during the handshake: a thread found the link ready, was suspended while the link broke and the client reconnected, and then posts the sending of its message, which takes place during the new handshake. -/
theorem C50_early_send_race : ∃ (as : List HkAct) (s : Hk) (e1 : List HkEv), Hk.Run true 1 (Hk.init true) as s (e1 ++ [.handOff]) ∧ ¬ Established 1 e1 ∧ s.status = .handshaking ∧ s.hs = some 0 := by
  have h : ∃ r, Hk.exec true 1 (Hk.init true)
    [.start, .connectDone, .handshakeDone true, .runSend false, .send, .recvError true, .runForce, .onClose true, .connectDone, .post, .runSend true] = some r := by exact ⟨_, rfl⟩
  obtain ⟨⟨s, es⟩, h⟩ := h
  have hr := Hk.exec_run h
  have e : some (s, es) = some _ := h.symm.trans rfl
  cases e
  refine ⟨_, _, [.start, .tcpUp, .handshake 0 true, .onConnect, .onClose, .start, .tcpUp], hr, ?_, rfl, rfl⟩
  exact not_established 1 [.start, .tcpUp, .handshake 0 true, .onConnect, .onClose, .start]

/-- A shutdown requested and executed during the handshake does not keep the link from becoming ready: if the handshake succeeds nevertheless, on_connect is called and the link is ready although the socket is closed. -/
theorem C50_late_handshake : ∃ (as : List HkAct) (s : Hk) (es : List HkEv), Hk.Run false 1 (Hk.init false) as s es ∧ s.status = .connected ∧ s.started = false ∧ s.closing = true ∧
    es.getLast? = some .onConnect := by
  have h : ∃ r, Hk.exec false 1 (Hk.init false) [.start, .shutdown false, .runForce, .handshakeDone true] = some r := by exact ⟨_, rfl⟩
  obtain ⟨⟨s, es⟩, h⟩ := h
  have hr := Hk.exec_run h
  have e : some (s, es) = some _ := h.symm.trans rfl
  cases e
  exact ⟨_, _, _, hr, rfl, rfl, rfl, rfl⟩

/-! ### the hypotheses can be met -/

/-- An SSL websocket client: two connection attempts, two handshakes, sending, a graceful shutdown, a second connection whose second handshake fails, closing. -/
example : ∃ (s : Hk) (es : List HkEv), Hk.Run true 2 (Hk.init true)
    [.start, .connectFail true true, .connectDone, .send, .handshakeDone true, .handshakeDone true, .runSend false, .send, .post, .runSend true, .shutdown true, .runShut, .tick, .runForce, .onClose false,
     .connectDone, .handshakeDone true, .handshakeDone false, .runForce, .onClose false] s es ∧
    es = [.start, .tcpUp, .handshake 0 true, .handshake 1 true, .onConnect, .handOff, .onClose, .start, .tcpUp, .handshake 0 true, .handshake 1 false, .onClose] ∧ attemptFailed es = true ∧ s.started = false :=
  ⟨_, _, Hk.exec_run rfl, rfl, rfl, rfl⟩

/-- A server whose handshake failed, before the forced shutdown. -/
example : ∃ (s : Hk) (es : List HkEv), Hk.Run false 1 (Hk.init false) [.start, .handshakeDone false] s es ∧ attemptFailed es = true ∧ s.started = true :=
  ⟨_, _, Hk.exec_run rfl, rfl, rfl⟩

end StAsio
