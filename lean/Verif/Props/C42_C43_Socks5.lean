import Verif.Lemmas.Socks5

/-!
# C42, C43: SOCKS5
-/

set_option autoImplicit false

namespace StAsio

theorem S5.run_trans {signed : Bool} {s s1 s2 : S5} {as bs : List S5Act} {es fs : List S5Ev} (h1 : S5.Run signed s as s1 es) (h2 : S5.Run signed s1 bs s2 fs) : S5.Run signed s (as ++ bs) s2 (es ++ fs) := by
  induction h2 with
  | nil => simpa using h1
  | snoc s2 s3 bs a fs fs' _ hs ih =>
    rw [← List.append_assoc, ← List.append_assoc]
    exact S5.Run.snoc _ _ _ _ _ _ _ ih hs

theorem S5.run_one {signed : Bool} {s s' : S5} {a : S5Act} {fs : List S5Ev} (h : s.step1 signed a = some (s', fs)) : S5.Run signed s [a] s' fs := by
  simpa using S5.Run.snoc _ _ _ _ _ _ _ (S5.Run.nil s) h

theorem S5.exec_run {signed : Bool} {s s' : S5} {as : List S5Act} {es : List S5Ev} (h : S5.exec signed s as = some (s', es)) : S5.Run signed s as s' es := by
  induction as generalizing s es with
  | nil => simp [S5.exec] at h; obtain ⟨rfl, rfl⟩ := h; exact S5.Run.nil _
  | cons a as ih =>
    simp only [S5.exec, Option.bind_eq_bind] at h
    rw [Option.bind_eq_some_iff] at h
    obtain ⟨⟨s1, e1⟩, h1, h2⟩ := h
    rw [Option.bind_eq_some_iff] at h2
    obtain ⟨⟨s2, e2⟩, h2, h3⟩ := h2
    simp at h3
    obtain ⟨rfl, rfl⟩ := h3
    exact S5.run_trans (S5.run_one h1) (ih h2)

theorem S5.parse_auth {signed : Bool} {s : S5} (hp : s.parse signed = .auth) : s.step = 1 ∧ s.resLen = 2 ∧ s.buf.getD 1 0 = 2 := by
  simp only [S5.parse] at hp
  split at hp
  · rename_i h1
    (repeat' split at hp) <;> first | (cases hp; done) | skip
    exact ⟨h1, by omega, by assumption⟩
  · (repeat' split at hp) <;> cases hp

theorem S5.parse_request {signed skip : Bool} {s : S5} (hp : s.parse signed = .request skip) : (skip = true ∧ s.step = 1 ∨ skip = false ∧ s.step = 2) ∧ s.resLen = 2 ∧ s.buf.getD 1 0 = 0 := by
  simp only [S5.parse] at hp
  split at hp
  · rename_i h1
    split at hp
    · cases hp
    · split at hp
      · cases hp
      · split at hp
        · cases hp
          exact ⟨Or.inl ⟨rfl, h1⟩, by omega, by assumption⟩
        · split at hp <;> cases hp
  · split at hp
    · rename_i h2
      split at hp
      · cases hp
      · split at hp
        · cases hp
        · split at hp
          · cases hp
            exact ⟨Or.inr ⟨rfl, h2⟩, by omega, by assumption⟩
          · cases hp
    · (repeat' split at hp) <;> cases hp

/-- recv_handler agrees with the ideal conversation. -/
theorem S5.recv_sync {signed : Bool} {s : S5} {c : S5Conf} {m : S5St} (hc : s.Conf c) (ht : c.target ≠ none) (hr : s.resLen ≤ 64)
    (hm : (s.step = 1 ∧ m = .greeted (s.buf.take s.resLen)) ∨ (s.step = 2 ∧ m = .authed (s.buf.take s.resLen)) ∨ (s.step = 3 ∧ m = .asked (s.buf.take s.resLen))) :
    ∃ s' fs c' m', s.recv signed = some (s', fs) ∧ s5Run (takenReply signed) c m fs = some (c', m') ∧ s'.Conf c' ∧ s'.Sync c' m' := by
  obtain ⟨t, hct⟩ := Option.ne_none_iff_exists'.1 ht
  have fin : ∀ m, (∃ acc, m = .greeted acc ∨ m = .authed acc ∨ m = .asked acc) → s5Run (takenReply signed) c m [.failed] = some (c, .free) := by
    rintro m ⟨acc, rfl | rfl | rfl⟩ <;> rfl
  have hmm : ∃ acc, m = .greeted acc ∨ m = .authed acc ∨ m = .asked acc := by
    rcases hm with h | h | h
    · exact ⟨_, Or.inl h.2⟩
    · exact ⟨_, Or.inr (Or.inl h.2)⟩
    · exact ⟨_, Or.inr (Or.inr h.2)⟩
  have hstep : s.step ≠ -1 := by rcases hm with h | h | h <;> omega
  cases hp : s.parse signed with
  | fail =>
    refine ⟨{ s with phase := .free }, [.failed], c, .free, by simp [S5.recv, hp], fin m hmm, hc.congr hc.len rfl rfl rfl rfl rfl, rfl, ?_⟩
    simp [hstep, ht]
  | ok =>
    obtain ⟨h3, hg⟩ := S5.parse_ok hc.len hr hp
    refine ⟨{ s with phase := .free }, [.app], c, .free, by simp [S5.recv, hp], ?_, hc.congr hc.len rfl rfl rfl rfl rfl, rfl, ?_⟩
    · rcases hm with h | h | h
      · omega
      · omega
      · rw [h.2]; simp [s5Run, s5Next, hg]
    · simp [hstep, ht]
  | more =>
    by_cases h64 : s.resLen ≥ 64
    · refine ⟨{ s with phase := .free }, [.failed], c, .free, by simp [S5.recv, hp, h64], fin m hmm, hc.congr hc.len rfl rfl rfl rfl rfl, rfl, ?_⟩
      simp [hstep, ht]
    · refine ⟨{ s with phase := .reading s.resLen }, [], c, m, by simp [S5.recv, hp, h64], rfl, hc.congr hc.len rfl rfl rfl rfl rfl, ?_⟩
      rcases hm with h | h | h <;> rw [h.2] <;> exact ⟨ht, Or.inr ⟨rfl, h.1, rfl, by simp only; omega⟩⟩
  | auth =>
    have h1 := S5.parse_auth hp
    obtain ⟨b, k1, k2⟩ := S5.sendAuth_eq hc.len hc.authLen
    have e : s.recv signed = s.sendAuth := by simp only [S5.recv, hp]
    rw [k1] at e
    refine ⟨_, _, c, .authed [], e, ?_, hc.congr k2 rfl rfl rfl rfl rfl, ?_⟩
    · rcases hm with h | h | h
      · obtain ⟨x, hx⟩ := take_two hc.len
        rw [h.2, h1.2.1, hx, h1.2.2]
        simp only [s5Run, s5Next]
        rw [if_pos]
        cases hau : c.auth with
        | none => exact Or.inl rfl
        | some v =>
          obtain ⟨a1, a2, a3, a4, a5⟩ := hc.auth v.1 v.2 hau
          rw [a1, a2]
          exact Or.inr (readAuth_eq a3 a4 a5)
      · omega
      · omega
    · exact ⟨ht, Or.inl ⟨rfl, h1.1, rfl, rfl⟩⟩
  | request skip =>
    have h1 := S5.parse_request hp
    obtain ⟨b, n, bs, k1, k2, k3⟩ := S5.sendRequest_holds (s := { s with step := s.step + (if skip then 1 else 0) }) (t := t) hc.len
      (by have := hc.target t hct
          obtain ⟨t, port⟩ := t
          cases t <;> exact this)
    have e : s.recv signed = S5.sendRequest { s with step := s.step + (if skip then 1 else 0) } := by simp only [S5.recv, hp]
    rw [k1] at e
    refine ⟨_, _, c, .asked [], e, ?_, hc.congr k2 rfl rfl rfl rfl rfl, ?_⟩
    · obtain ⟨x, hx⟩ := take_two hc.len
      rcases hm with h | h | h
      · rw [h.2, h1.2.1, hx, h1.2.2]
        simp only [s5Run, s5Next]
        rw [if_pos (by rw [k3, hct])]
      · rw [h.2, h1.2.1, hx, h1.2.2]
        simp only [s5Run, s5Next]
        rw [if_pos (by rw [k3, hct])]
      · omega
    · refine ⟨ht, Or.inl ⟨rfl, ?_, rfl, rfl⟩⟩
      simp only
      rcases h1.1 with ⟨rfl, h⟩ | ⟨rfl, h⟩ <;> simp [h]

theorem S5.inv_step {signed : Bool} {s s' : S5} {a : S5Act} {fs : List S5Ev} {c : S5Conf} {m : S5St} (hf : a.fresh = true) (hc : s.Conf c) (hm : s.Sync c m) (hs : s.step1 signed a = some (s', fs)) :
    ∃ c' m', s5Run (takenReply signed) c m fs = some (c', m') ∧ s'.Conf c' ∧ s'.Sync c' m' := by
  have hfree : s.phase = .free → m = .free ∧ (s.step = -1 ↔ c.target = none) := by
    intro hp
    cases m with
    | free => exact ⟨rfl, hm.2⟩
    | greeted acc => rcases hm.2 with h | h <;> rw [hp] at h <;> cases h.1
    | authed acc => rcases hm.2 with h | h <;> rw [hp] at h <;> cases h.1
    | asked acc => rcases hm.2 with h | h <;> rw [hp] at h <;> cases h.1
  cases a with
  | setTargetStale port t => cases hf
  | setTarget port t =>
    simp only [S5.step1] at hs
    split at hs
    · rename_i hcnd
      obtain ⟨c1, c2, c3, c4⟩ := hcnd
      obtain ⟨rfl, hst⟩ := hfree c1
      simp only [Option.some.injEq] at hs
      have noT : S5.Conf { s with step := -1 } { c with target := none } := ⟨hc.len, hc.noauth, hc.auth, fun t ht => by cases ht⟩
      cases t with
      | name d =>
        simp only [S5.setTarget] at hs
        split at hs
        · cases hs
          exact ⟨_, _, rfl, noT, c1, by simp⟩
        · rename_i hpd
          split at hs
          · cases hs
            exact ⟨_, _, rfl, noT, c1, by simp⟩
          · rename_i hl
            cases hs
            refine ⟨_, _, rfl, ⟨hc.len, hc.noauth, hc.auth, ?_⟩, c1, by simp⟩
            intro t ht
            simp at ht
            subst ht
            refine ⟨rfl, rfl, ?_, by omega, c2⟩
            intro h; exact hpd (Or.inr h)
      | ip4 ip =>
        simp only [S5.setTarget] at hs
        simp [SocksTarget.isName] at c4
        simp [SocksTarget.sized] at c3
        split at hs
        · cases hs
          exact ⟨_, _, rfl, noT, c1, by simp⟩
        · cases hs
          refine ⟨_, _, rfl, ⟨hc.len, hc.noauth, hc.auth, ?_⟩, c1, by simp⟩
          intro t ht
          simp at ht
          subst ht
          exact ⟨c4, rfl, c3, c2⟩
      | ip6 ip =>
        simp only [S5.setTarget] at hs
        simp [SocksTarget.isName] at c4
        simp [SocksTarget.sized] at c3
        split at hs
        · cases hs
          exact ⟨_, _, rfl, noT, c1, by simp⟩
        · cases hs
          refine ⟨_, _, rfl, ⟨hc.len, hc.noauth, hc.auth, ?_⟩, c1, by simp⟩
          intro t ht
          simp at ht
          subst ht
          exact ⟨c4, rfl, c3, c2⟩
    · cases hs
  | setAuth u p =>
    simp only [S5.step1] at hs
    split at hs
    · rename_i c1
      obtain ⟨rfl, hst⟩ := hfree c1
      split at hs
      · cases hs; exact ⟨c, .free, rfl, hc, hm⟩
      · rename_i hb
        cases hs
        refine ⟨_, _, rfl, ⟨hc.len, by simp, ?_, ?_⟩, c1, hst⟩
        · intro u' p' h
          simp at h
          obtain ⟨rfl, rfl⟩ := h
          refine ⟨rfl, rfl, fun h => hb (Or.inl h), fun h => hb (Or.inr (Or.inl h)), ?_⟩
          have := fun h => hb (Or.inr (Or.inr h))
          omega
        · intro t ht
          have := hc.target t ht
          obtain ⟨t, port⟩ := t
          cases t <;> exact this
    · cases hs
  | tcpUp =>
    simp only [S5.step1] at hs
    split at hs
    · rename_i c1
      obtain ⟨rfl, hst⟩ := hfree c1
      split at hs
      · rename_i h1
        cases hs
        refine ⟨c, .free, ?_, hc, hm⟩
        simp [s5Run, s5Next, hst.1 h1]
      · rename_i h1
        have ht : c.target ≠ none := fun h => h1 (hst.2 h)
        obtain ⟨b, bs, n, k1, k2, k3, k4⟩ := S5.sendMethod_eq (s := { s with step := 0 }) hc.len
        rw [k1] at hs
        cases hs
        refine ⟨c, .greeted [], ?_, hc.congr k2 rfl rfl rfl rfl rfl, ht, Or.inl ⟨rfl, rfl, rfl, rfl⟩⟩
        simp only [s5Run, s5Next]
        rw [if_pos]
        refine ⟨ht, ?_⟩
        rw [k4]
        congr 1
        simp only
        cases hau : c.auth with
        | none => obtain ⟨a1, a2⟩ := hc.noauth hau; simp [a1, a2]
        | some v => obtain ⟨a1, a2, a3, a4, a5⟩ := hc.auth v.1 v.2 hau; simp [a1, a2, a3]
    · cases hs
  | tcpFail =>
    simp only [S5.step1] at hs
    split at hs
    · cases hs; exact ⟨c, m, rfl, hc, hm⟩
    · cases hs
  | writeDone ok =>
    simp only [S5.step1] at hs
    split at hs
    · rename_i c1
      split at hs
      · cases hs
        refine ⟨c, m, rfl, hc.congr hc.len rfl rfl rfl rfl rfl, ?_⟩
        cases m with
        | free => rw [hm.1] at c1; cases c1
        | greeted acc => rcases hm.2 with h | h
                         · exact ⟨hm.1, Or.inr ⟨by simp [h.2.2.2], by simp [h.2.1], by simp [h.2.2.1, h.2.2.2], by simp [h.2.2.2]⟩⟩
                         · rw [c1] at h; cases h.1
        | authed acc => rcases hm.2 with h | h
                        · exact ⟨hm.1, Or.inr ⟨by simp [h.2.2.2], by simp [h.2.1], by simp [h.2.2.1, h.2.2.2], by simp [h.2.2.2]⟩⟩
                        · rw [c1] at h; cases h.1
        | asked acc => rcases hm.2 with h | h
                       · exact ⟨hm.1, Or.inr ⟨by simp [h.2.2.2], by simp [h.2.1], by simp [h.2.2.1, h.2.2.2], by simp [h.2.2.2]⟩⟩
                       · rw [c1] at h; cases h.1
      · cases hs
        refine ⟨c, .free, ?_, hc.congr hc.len rfl rfl rfl rfl rfl, rfl, ?_⟩
        · cases m with
          | free => rw [hm.1] at c1; cases c1
          | _ => rfl
        · cases m with
          | free => rw [hm.1] at c1; cases c1
          | _ => rcases hm with ⟨ht, h | h⟩ <;> (simp only [ht, iff_false]; omega)
    · cases hs
  | readErr =>
    simp only [S5.step1] at hs
    split at hs
    · rename_i off c1
      cases hs
      refine ⟨c, .free, ?_, hc.congr hc.len rfl rfl rfl rfl rfl, rfl, ?_⟩
      · cases m with
        | free => rw [hm.1] at c1; cases c1
        | _ => rfl
      · cases m with
        | free => rw [hm.1] at c1; cases c1
        | _ => rcases hm with ⟨ht, h | h⟩ <;> (simp only [ht, iff_false]; omega)
    · cases hs
  | readSome bs =>
    simp only [S5.step1] at hs
    split at hs
    · rename_i off c1
      split at hs
      · rename_i hoff
        simp only [Option.bind_eq_bind] at hs
        rw [Option.bind_eq_some_iff] at hs
        obtain ⟨b, hb, hs⟩ := hs
        rw [Option.bind_eq_some_iff] at hs
        obtain ⟨⟨s1, es⟩, hrecv, hs⟩ := hs
        simp at hs
        obtain ⟨rfl, rfl⟩ := hs
        have hrd : off = s.resLen ∧ c.target ≠ none ∧ s.resLen < 64 ∧ ((s.step = 1 ∧ m = .greeted (s.buf.take s.resLen)) ∨ (s.step = 2 ∧ m = .authed (s.buf.take s.resLen)) ∨ (s.step = 3 ∧ m = .asked (s.buf.take s.resLen))) := by
          cases m with
          | free => rw [hm.1] at c1; cases c1
          | greeted acc =>
            obtain ⟨ht, h | h⟩ := hm
            · rw [h.1] at c1; cases c1
            · rw [h.1] at c1; cases c1; exact ⟨rfl, ht, h.2.2.2, Or.inl ⟨h.2.1, by rw [← h.2.2.1]⟩⟩
          | authed acc =>
            obtain ⟨ht, h | h⟩ := hm
            · rw [h.1] at c1; cases c1
            · rw [h.1] at c1; cases c1; exact ⟨rfl, ht, h.2.2.2, Or.inr (Or.inl ⟨h.2.1, by rw [← h.2.2.1]⟩)⟩
          | asked acc =>
            obtain ⟨ht, h | h⟩ := hm
            · rw [h.1] at c1; cases c1
            · rw [h.1] at c1; cases c1; exact ⟨rfl, ht, h.2.2.2, Or.inr (Or.inr ⟨h.2.1, by rw [← h.2.2.1]⟩)⟩
        obtain ⟨rfl, ht, hlt, hm'⟩ := hrd
        obtain ⟨b', p1, p2, p3⟩ := poke_prefix (b := s.buf) (p := s.buf.take s.resLen) (x := bs) (off := s.resLen) rfl (by simp [hc.len]; omega) (by rw [hc.len]; exact hoff)
        rw [hb] at p1
        cases p1
        have hc1 : S5.Conf { s with buf := b, resLen := s.resLen + bs.length } c := hc.congr (by simp only; rw [p2]; exact hc.len) rfl rfl rfl rfl rfl
        have key : ∀ m1, ((s.step = 1 ∧ m1 = .greeted (b.take (s.resLen + bs.length))) ∨ (s.step = 2 ∧ m1 = .authed (b.take (s.resLen + bs.length))) ∨ (s.step = 3 ∧ m1 = .asked (b.take (s.resLen + bs.length)))) →
            ∃ c' m', s5Run (takenReply signed) c m1 es = some (c', m') ∧ s1.Conf c' ∧ s1.Sync c' m' := by
          intro m1 h1
          obtain ⟨s2, fs, c', m', k1, k2, k3, k4⟩ := S5.recv_sync (signed := signed) (s := { s with buf := b, resLen := s.resLen + bs.length }) (m := m1) hc1 ht hoff h1
          rw [hrecv] at k1
          cases k1
          exact ⟨c', m', k2, k3, k4⟩
        rcases hm' with ⟨h1, rfl⟩ | ⟨h1, rfl⟩ | ⟨h1, rfl⟩
        · obtain ⟨c', m', k⟩ := key _ (Or.inl ⟨h1, rfl⟩)
          refine ⟨c', m', ?_, k.2⟩
          simp only [s5Run, s5Next]
          rw [← p3]; exact k.1
        · obtain ⟨c', m', k⟩ := key _ (Or.inr (Or.inl ⟨h1, rfl⟩))
          refine ⟨c', m', ?_, k.2⟩
          simp only [s5Run, s5Next]
          rw [← p3]; exact k.1
        · obtain ⟨c', m', k⟩ := key _ (Or.inr (Or.inr ⟨h1, rfl⟩))
          refine ⟨c', m', ?_, k.2⟩
          simp only [s5Run, s5Next]
          rw [← p3]; exact k.1
      · cases hs
    · cases hs

theorem S5.inv_run {signed : Bool} {as : List S5Act} {s : S5} {es : List S5Ev} (hf : ∀ a ∈ as, a.fresh = true) (h : S5.Run signed S5.init as s es) :
    ∃ c m, s5Run (takenReply signed) ⟨none, none⟩ .free es = some (c, m) ∧ s.Conf c ∧ s.Sync c m := by
  generalize h0 : S5.init = s0 at h
  induction h with
  | nil =>
    subst h0
    exact ⟨⟨none, none⟩, .free, rfl, ⟨rfl, fun _ => ⟨rfl, rfl⟩, (fun u p h => by cases h), (fun t h => by cases h)⟩, rfl, by simp [S5.init]⟩
  | snoc s1 s2 as a es fs hr hs ih =>
    obtain ⟨c, m, k1, k2, k3⟩ := ih (fun a ha => hf a (by simp [ha]))
    obtain ⟨c', m', j1, j2, j3⟩ := S5.inv_step (hf a (by simp)) k2 k3 hs
    refine ⟨c', m', ?_, j2, j3⟩
    rw [s5Run_append, k1]
    exact j1

/-- C42 and C43 (partial: no address is configured after a domain name, see C42_fails_stale; `takenReply` instead of `goodReply`, see C43_fails_atyp and C43_fails_signed): for every target, every credentials, every sequence of configurations and connections, and whatever the proxy sends in
whatever pieces, the conversation is the one of RFC 1928 and 1929: the proxy reads the right greeting, credentials and target, each only after a complete, matching answer to the message before, and the application protocol begins only after a complete reply, with no byte of the proxy left
over and no byte after it consumed. -/
theorem C42_C43_conversation_partial {signed : Bool} {as : List S5Act} {s : S5} {es : List S5Ev} (hf : ∀ a ∈ as, a.fresh = true) (h : S5.Run signed S5.init as s es) : s5Run (takenReply signed) ⟨none, none⟩ .free es ≠ none := by
  obtain ⟨c, m, k1, _, _⟩ := S5.inv_run hf h
  rw [k1]; simp

/-! ### Memory safety -/

/-- What keeps the buffer in bounds, whatever is configured in whatever order. -/
structure S5.Safe (s : S5) : Prop where
  len : s.buf.length = 64
  auth : s.user.length + s.pass.length ≤ 60
  dom : s.domain.length ≤ 57
  addr : s.addr.1.sized = true ∧ s.addr.1.isName = false
  read : ∀ off, s.phase = .reading off → off = s.resLen ∧ s.resLen < 64
  write : s.phase = .writing → s.resLen = 0

theorem S5.sendRequest_safe {s : S5} (h : s.Safe) : ∃ b n bs, s.sendRequest = some ({ s with buf := b, resLen := 0, reqLen := n, phase := .writing }, [.wrote bs]) ∧ b.length = 64 := by
  by_cases hd : s.domain = []
  · obtain ⟨a1, a2⟩ := h.addr
    cases ha : s.addr with
    | mk t port =>
      rw [ha] at a1 a2
      cases t with
      | name d => simp [SocksTarget.isName] at a2
      | ip4 ip => obtain ⟨b, k1, k2⟩ := S5.sendRequest_ip4 h.len hd ha (by simpa [SocksTarget.sized] using a1); rw [ha] at k1; exact ⟨b, _, _, k1, k2⟩
      | ip6 ip => obtain ⟨b, k1, k2⟩ := S5.sendRequest_ip6 h.len hd ha (by simpa [SocksTarget.sized] using a1); rw [ha] at k1; exact ⟨b, _, _, k1, k2⟩
  · obtain ⟨b, k1, k2⟩ := S5.sendRequest_name h.len hd h.dom
    exact ⟨b, _, _, k1, k2⟩

/-- Only buffer, lengths and phase may change. -/
theorem S5.Safe.congr {s s' : S5} (h : s.Safe) (h1 : s'.buf.length = 64) (h2 : s'.user = s.user) (h3 : s'.pass = s.pass) (h4 : s'.domain = s.domain) (h5 : s'.addr = s.addr)
    (h6 : ∀ off, s'.phase = .reading off → off = s'.resLen ∧ s'.resLen < 64) (h7 : s'.phase = .writing → s'.resLen = 0) : s'.Safe :=
  ⟨h1, by rw [h2, h3]; exact h.auth, by rw [h4]; exact h.dom, by rw [h5]; exact h.addr, h6, h7⟩

theorem S5.recv_safe {signed : Bool} {s : S5} (h : s.Safe) : ∃ s' fs, s.recv signed = some (s', fs) ∧ s'.Safe ∧ (s.resLen ≥ 64 → ∀ off, s'.phase ≠ .reading off) := by
  cases hp : s.parse signed with
  | fail => exact ⟨{ s with phase := .free }, [.failed], by simp [S5.recv, hp], h.congr h.len rfl rfl rfl rfl (by simp) (by simp), by simp⟩
  | ok => exact ⟨{ s with phase := .free }, [.app], by simp [S5.recv, hp], h.congr h.len rfl rfl rfl rfl (by simp) (by simp), by simp⟩
  | more =>
    by_cases h64 : s.resLen ≥ 64
    · exact ⟨{ s with phase := .free }, [.failed], by simp [S5.recv, hp, h64], h.congr h.len rfl rfl rfl rfl (by simp) (by simp), by simp⟩
    · exact ⟨{ s with phase := .reading s.resLen }, [], by simp [S5.recv, hp, h64], h.congr h.len rfl rfl rfl rfl (by simp; omega) (by simp), fun h' => absurd h' h64⟩
  | auth =>
    obtain ⟨b, k1, k2⟩ := S5.sendAuth_eq h.len h.auth
    have e : s.recv signed = s.sendAuth := by simp only [S5.recv, hp]
    rw [k1] at e
    exact ⟨_, _, e, h.congr k2 rfl rfl rfl rfl (by simp) (by simp), by simp⟩
  | request skip =>
    obtain ⟨b, n, bs, k1, k2⟩ := S5.sendRequest_safe (s := { s with step := s.step + (if skip then 1 else 0) }) (h.congr h.len rfl rfl rfl rfl h.read h.write)
    have e : s.recv signed = S5.sendRequest { s with step := s.step + (if skip then 1 else 0) } := by simp only [S5.recv, hp]
    rw [k1] at e
    exact ⟨_, _, e, h.congr k2 rfl rfl rfl rfl (by simp) (by simp), by simp⟩

/-- A read that fits is a step. -/
theorem S5.readSome_safe {signed : Bool} {s : S5} {off : Nat} {bs : Bytes} (h : s.Safe) (hp : s.phase = .reading off) (hl : off + bs.length ≤ 64) :
    ∃ s' fs, s.step1 signed (.readSome bs) = some (s', fs) ∧ s'.Safe ∧ (off + bs.length = 64 → ∀ o, s'.phase ≠ .reading o) := by
  obtain ⟨rfl, hlt⟩ := h.read off hp
  obtain ⟨b, p1, p2, p3⟩ := poke_prefix (b := s.buf) (p := s.buf.take s.resLen) (x := bs) (off := s.resLen) rfl (by simp [h.len]; omega) (by rw [h.len]; exact hl)
  have hb : b.length = 64 := by rw [p2]; exact h.len
  have key : ∀ s1 : S5, s1 = { s with buf := b, resLen := s.resLen + bs.length } → ∃ s' fs, s1.recv signed = some (s', fs) ∧ s'.Safe ∧ (s1.resLen ≥ 64 → ∀ off, s'.phase ≠ .reading off) := by
    intro s1 e1
    have hs : S5.Safe { s with buf := b, resLen := s.resLen + bs.length, phase := .free } := h.congr hb rfl rfl rfl rfl (by simp) (by simp)
    have hparse : s1.parse signed = S5.parse signed { s with buf := b, resLen := s.resLen + bs.length, phase := .free } := by rw [e1]; rfl
    have hrecv : s1.recv signed = S5.recv signed { s with buf := b, resLen := s.resLen + bs.length, phase := .free } := by
      simp only [S5.recv, hparse]
      subst e1
      cases S5.parse signed { s with buf := b, resLen := s.resLen + bs.length, phase := .free } <;> rfl
    rw [hrecv]
    obtain ⟨s', fs, k1, k2, k3⟩ := S5.recv_safe (signed := signed) hs
    refine ⟨s', fs, k1, k2, ?_⟩
    intro h64
    apply k3
    rw [e1] at h64
    exact h64
  obtain ⟨s', fs, k1, k2, k3⟩ := key _ rfl
  refine ⟨s', .got bs :: fs, ?_, k2, fun h => k3 (by simp only; omega)⟩
  rw [hp] at k1
  simp only [S5.step1, hp]
  rw [if_pos hl, p1]
  simp only [Option.bind_eq_bind, Option.bind_some, k1]
  rfl

theorem S5.safe_step {signed : Bool} {s s' : S5} {a : S5Act} {fs : List S5Ev} (h : s.Safe) (hs : s.step1 signed a = some (s', fs)) : s'.Safe := by
  have setT : ∀ port t, t.sized = true → s.phase = .free → (s.setTarget port t).1.Safe := by
    intro port t ht hp
    cases t with
    | name d =>
      simp only [S5.setTarget]
      split
      · exact h.congr h.len rfl rfl rfl rfl (by simp [hp]) (by simp [hp])
      · split
        · exact h.congr h.len rfl rfl rfl rfl (by simp [hp]) (by simp [hp])
        · exact ⟨h.len, h.auth, by simp only; omega, h.addr, by simp [hp], by simp [hp]⟩
    | ip4 ip =>
      simp only [S5.setTarget]
      split
      · exact h.congr h.len rfl rfl rfl rfl (by simp [hp]) (by simp [hp])
      · exact ⟨h.len, h.auth, h.dom, ⟨ht, rfl⟩, by simp [hp], by simp [hp]⟩
    | ip6 ip =>
      simp only [S5.setTarget]
      split
      · exact h.congr h.len rfl rfl rfl rfl (by simp [hp]) (by simp [hp])
      · exact ⟨h.len, h.auth, h.dom, ⟨ht, rfl⟩, by simp [hp], by simp [hp]⟩
  cases a with
  | setTarget port t =>
    simp only [S5.step1] at hs
    split at hs
    · rename_i hc
      have := setT port t hc.2.2.1 hc.1
      simp only [Option.some.injEq] at hs
      rw [hs] at this; exact this
    · cases hs
  | setTargetStale port t =>
    simp only [S5.step1] at hs
    split at hs
    · rename_i hc
      have := setT port t hc.2.2.1 hc.1
      simp only [Option.some.injEq] at hs
      rw [hs] at this; exact this
    · cases hs
  | setAuth u p =>
    simp only [S5.step1] at hs
    split at hs
    · split at hs
      · cases hs; exact h
      · rename_i hc
        cases hs
        have := fun h => hc (Or.inr (Or.inr h))
        exact ⟨h.len, by simp only; omega, h.dom, h.addr, h.read, h.write⟩
    · cases hs
  | tcpUp =>
    simp only [S5.step1] at hs
    split at hs
    · split at hs
      · cases hs; exact h
      · obtain ⟨b, bs, n, k1, k2, k3, k4⟩ := S5.sendMethod_eq (s := { s with step := 0 }) h.len
        rw [k1] at hs
        cases hs
        exact h.congr k2 rfl rfl rfl rfl (by simp) (by simp)
    · cases hs
  | tcpFail =>
    simp only [S5.step1] at hs
    split at hs
    · cases hs; exact h
    · cases hs
  | writeDone ok =>
    simp only [S5.step1] at hs
    split at hs
    · rename_i hp
      have := h.write hp
      split at hs
      · cases hs; exact h.congr h.len rfl rfl rfl rfl (by simp [this]) (by simp)
      · cases hs; exact h.congr h.len rfl rfl rfl rfl (by simp) (by simp)
    · cases hs
  | readErr =>
    simp only [S5.step1] at hs
    split at hs
    · cases hs; exact h.congr h.len rfl rfl rfl rfl (by simp) (by simp)
    · cases hs
  | readSome bs =>
    cases hp : s.phase with
    | reading off =>
      by_cases hl : off + bs.length ≤ 64
      · obtain ⟨s1, fs1, k1, k2, _⟩ := S5.readSome_safe (signed := signed) h hp hl
        rw [k1] at hs
        cases hs
        exact k2
      · simp [S5.step1, hp, hl] at hs
    | free => simp [S5.step1, hp] at hs
    | writing => simp [S5.step1, hp] at hs

theorem S5.safe_run {signed : Bool} {as : List S5Act} {s : S5} {es : List S5Ev} (h : S5.Run signed S5.init as s es) : s.Safe := by
  generalize h0 : S5.init = s0 at h
  induction h with
  | nil => subst h0; exact ⟨rfl, by decide, by decide, by decide, (fun off h => by cases h), (by decide)⟩
  | snoc s1 s2 as a es fs hr hs ih => exact S5.safe_step ih hs

/-- C42, C43: no write leaves the 64 byte buffer (it would be no step), whatever was configured, in whatever order, and whatever the proxy sends in whatever pieces: every call and every completion that can happen is a step; a read always has room for at least a byte, and when the buffer is
full the client decides. -/
theorem C43_safe {signed : Bool} {as : List S5Act} {s : S5} {es : List S5Ev} (h : S5.Run signed S5.init as s es) :
    (s.phase = .free → (s.step1 signed .tcpUp).isSome) ∧
    (s.phase = .writing → ∀ ok, (s.step1 signed (.writeDone ok)).isSome) ∧
    (∀ off, s.phase = .reading off → off < 64 ∧ (s.step1 signed .readErr).isSome ∧
      ∀ bs : Bytes, off + bs.length ≤ 64 → ∃ s' fs, s.step1 signed (.readSome bs) = some (s', fs) ∧ (off + bs.length = 64 → ∀ o, s'.phase ≠ .reading o)) := by
  have hi := S5.safe_run h
  refine ⟨fun hp => ?_, fun hp ok => ?_, fun off hp => ⟨?_, ?_, ?_⟩⟩
  · simp only [S5.step1, hp, if_true]
    split
    · rfl
    · obtain ⟨b, bs, n, k1, _⟩ := S5.sendMethod_eq (s := { s with step := 0, phase := .free }) hi.len
      rw [k1]; rfl
  · cases ok <;> simp [S5.step1, hp]
  · obtain ⟨h1, h2⟩ := hi.read off hp; omega
  · simp [S5.step1, hp]
  · intro bs hl
    obtain ⟨s', fs, k1, _, k3⟩ := S5.readSome_safe (signed := signed) hi hp hl
    exact ⟨s', fs, k1, k3⟩

/-! ### A proxy that follows the RFCs, in any pieces -/

/-- On a beginning of a good reply the client waits for more, on all of it it goes on. -/
theorem S5.parse_reply {signed : Bool} {s : S5} {r : Bytes} (hb : s.buf.length = 64) (h3 : s.step = 3) (hr : goodReply r = true) (hl : r.length ≤ 64) (hp : s.buf.take s.resLen <+: r) (hrl : s.resLen ≤ 64) :
    s.parse signed = if s.resLen < r.length then .more else .ok := by
  have hlen : (s.buf.take s.resLen).length = s.resLen := by simp [hb]; omega
  have hle : s.resLen ≤ r.length := by have := hp.length_le; omega
  obtain ⟨t, ht⟩ := hp
  generalize hq : s.buf.take s.resLen = q at ht hlen
  have h7 : 7 ≤ r.length := by
    match r, hr with
    | _ :: rep :: _ :: atyp :: rest, hr =>
      simp only [goodReply, Bool.and_eq_true] at hr
      have := hr.2
      simp only [List.length_cons]
      split at this
      · simp at this; omega
      · split at this
        · simp at this; omega
        · split at this
          · split at this
            · rename_i n rest'
              simp at this
              simp only [List.length_cons]; omega
            · cases this
          · cases this
  by_cases h6 : s.resLen < 6
  · rw [if_pos (by omega)]
    simp [S5.parse, h3, h6]
  · match q, hlen, hq with
    | [], hlen, _ => simp at hlen; omega
    | [_], hlen, _ => simp at hlen; omega
    | [_, _], hlen, _ => simp at hlen; omega
    | [_, _, _], hlen, _ => simp at hlen; omega
    | [_, _, _, _], hlen, _ => simp at hlen; omega
    | [_, _, _, _, _], hlen, _ => simp at hlen; omega
    | x0 :: x1 :: x2 :: x3 :: x4 :: x5 :: q, hlen, hq =>
      obtain ⟨rest, hbuf⟩ : ∃ rest, s.buf = x0 :: x1 :: x2 :: x3 :: x4 :: x5 :: rest := by
        refine ⟨q ++ s.buf.drop s.resLen, ?_⟩
        have := (List.take_append_drop s.resLen s.buf).symm
        rw [hq] at this
        simpa using this
      subst ht
      simp only [List.cons_append, goodReply, Bool.and_eq_true, decide_eq_true_eq] at hr
      obtain ⟨rfl, hr⟩ := hr
      simp only [S5.parse, h3, hbuf, List.getD_cons_succ, List.getD_cons_zero, List.cons_append, List.length_cons, List.length_append] at *
      rw [if_neg (by decide), if_neg (by decide), if_pos trivial, if_neg h6, if_pos trivial]
      by_cases e1 : x3 = 1
      · subst e1
        rw [if_pos rfl] at hr ⊢
        simp at hr
        by_cases hlt : s.resLen < q.length + t.length + 1 + 1 + 1 + 1 + 1 + 1
        · rw [if_pos (by omega), if_pos hlt]
        · rw [if_neg (by omega), if_neg (by omega), if_neg hlt]
      · rw [if_neg e1] at hr ⊢
        by_cases e4 : x3 = 4
        · subst e4
          rw [if_pos rfl] at hr
          rw [if_neg (show ¬ ((4 : UInt8) = 3) by decide), if_pos rfl]
          simp at hr
          by_cases hlt : s.resLen < q.length + t.length + 1 + 1 + 1 + 1 + 1 + 1
          · rw [if_pos (by omega), if_pos hlt]
          · rw [if_neg (by omega), if_neg (by omega), if_neg hlt]
        · rw [if_neg e4] at hr
          by_cases e3 : x3 = 3
          · subst e3
            rw [if_pos rfl] at hr ⊢
            simp at hr
            have hx : charVal signed x4 = x4.toNat := by
              simp only [charVal]
              rw [if_neg]
              omega
            rw [hx]
            have : ((6 + (1 + (x4.toNat : Int))) % 2 ^ 64).toNat = x4.toNat + 7 := by omega
            rw [this]
            by_cases hlt : s.resLen < q.length + t.length + 1 + 1 + 1 + 1 + 1 + 1
            · rw [if_pos (by omega), if_pos hlt]
            · rw [if_neg (by omega), if_neg (by omega), if_neg hlt]
          · rw [if_neg e3] at hr
            simp at hr

/-- The client with more bytes read. -/
def S5.with (s : S5) (b : Bytes) (n : Nat) (p : SocksPhase) : S5 := { s with buf := b, resLen := n, phase := p }

theorem S5.readSome_eq {signed : Bool} {s : S5} {bs : Bytes} (hb : s.buf.length = 64) (hp : s.phase = .reading s.resLen) (hl : s.resLen + bs.length ≤ 64) :
    ∃ b, b.length = 64 ∧ b.take (s.resLen + bs.length) = s.buf.take s.resLen ++ bs ∧ s.step1 signed (.readSome bs) = (S5.recv signed (s.with b (s.resLen + bs.length) (.reading s.resLen))).map (fun x => (x.1, .got bs :: x.2)) := by
  obtain ⟨b, p1, p2, p3⟩ := poke_prefix (b := s.buf) (p := s.buf.take s.resLen) (x := bs) (off := s.resLen) rfl (by simp [hb]; omega) (by rw [hb]; exact hl)
  refine ⟨b, by omega, p3, ?_⟩
  simp only [S5.step1, hp]
  rw [if_pos hl, p1]
  simp only [Option.bind_eq_bind, Option.bind_some, S5.with]
  cases S5.recv signed { s with buf := b, resLen := s.resLen + bs.length, phase := .reading s.resLen } <;> rfl

/-- Reading R in pieces: the client waits until it has all of it, then decides. -/
theorem S5.read_pieces {signed : Bool} {R : Bytes} (cs : List Bytes) {s : S5} (hb : s.buf.length = 64) (hp : s.phase = .reading s.resLen) (hne : ∀ x ∈ cs, x ≠ []) (hR : s.buf.take s.resLen ++ cs.flatten = R) (hl : R.length ≤ 64) (hlt : s.resLen < R.length)
    (hmore : ∀ s1 : S5, s1.buf.length = 64 → s1.step = s.step → s1.resLen ≤ 64 → s1.buf.take s1.resLen <+: R → s1.resLen < R.length → s1.parse signed = .more) :
    ∃ b ph es, b.length = 64 ∧ b.take R.length = R ∧ ∀ s2 fs, S5.recv signed (s.with b R.length ph) = some (s2, fs) → S5.Run signed s (cs.map .readSome) s2 (es ++ fs) := by
  induction cs generalizing s with
  | nil =>
    have : (s.buf.take s.resLen).length = R.length := by rw [← hR]; simp
    simp [hb] at this
    omega
  | cons x cs ih =>
    have hx : x ≠ [] := hne x (by simp)
    have hx1 : 1 ≤ x.length := by cases x <;> simp_all
    have htl : (s.buf.take s.resLen).length = s.resLen := by simp [hb]; omega
    have hRl : R.length = s.resLen + (x.length + cs.flatten.length) := by rw [← hR]; simp [htl]
    obtain ⟨b, b1, b2, b3⟩ := S5.readSome_eq (signed := signed) (bs := x) hb hp (by omega)
    have hpre : s.buf.take s.resLen ++ x ++ cs.flatten = R := by rw [← hR]; simp
    by_cases hlast : s.resLen + x.length = R.length
    · have hcs : cs = [] := by
        cases cs with
        | nil => rfl
        | cons y cs =>
          have : y ≠ [] := hne y (by simp)
          have : 1 ≤ y.length := by cases y <;> simp_all
          simp at hRl; omega
      subst hcs
      refine ⟨b, .reading s.resLen, [.got x], b1, ?_, ?_⟩
      · rw [← hlast, b2]; simpa using hpre
      · intro s2 fs h
        rw [← hlast] at h
        rw [h] at b3
        exact S5.run_one b3
    · have hm : S5.parse signed (s.with b (s.resLen + x.length) (.reading s.resLen)) = .more := by
        refine hmore _ b1 rfl (by simp only [S5.with]; omega) ?_ (by simp only [S5.with]; omega)
        simp only [S5.with]
        rw [b2]
        exact ⟨cs.flatten, hpre⟩
      have hrecv : S5.recv signed (s.with b (s.resLen + x.length) (.reading s.resLen)) = some (s.with b (s.resLen + x.length) (.reading (s.resLen + x.length)), []) := by
        simp only [S5.recv, hm]
        rw [if_neg (by simp only [S5.with]; omega)]
        rfl
      rw [hrecv] at b3
      obtain ⟨b', ph, es, k1, k2, k3⟩ := ih (s := s.with b (s.resLen + x.length) (.reading (s.resLen + x.length))) b1 rfl (fun y hy => hne y (by simp [hy]))
        (by simp only [S5.with]; rw [b2]; exact hpre) (by simp only [S5.with]; omega) hmore
      refine ⟨b', ph, [.got x] ++ es, k1, k2, ?_⟩
      intro s2 fs h
      have := k3 s2 fs h
      have := S5.run_trans (S5.run_one b3) this
      simpa using this

theorem S5.parse_short {signed : Bool} {s : S5} (h : s.step = 1 ∨ s.step = 2) (hr : s.resLen < 2) : s.parse signed = .more := by
  rcases h with h | h <;> simp [S5.parse, h, hr]

/-- The first two bytes of the buffer. -/
theorem getD_one {b : Bytes} {x y : Byte} (h : b.take 2 = [x, y]) : b.getD 1 0 = y := by
  match b, h with
  | [], h => simp at h
  | [_], h => simp at h
  | a :: c :: rest, h => simp at h; simp [h.2]

/-- Sending the request and reading the reply. -/
theorem S5.ask_pieces {signed : Bool} {s : S5} {rs : List Bytes} {r : Bytes} (hs : s.Safe) (h2 : s.step = 2) (hp : s.phase = .writing) (hne : ∀ x ∈ rs, x ≠ []) (hr : rs.flatten = r) (hg : goodReply r = true) (hl : r.length ≤ 64) :
    ∃ s' es, S5.Run signed s (.writeDone true :: rs.map .readSome) s' (es ++ [.app]) ∧ s'.phase = .free := by
  have hw : s.step1 signed (.writeDone true) = some ({ s with step := 3, phase := .reading 0 }, []) := by simp [S5.step1, hp, h2]
  have h0 := hs.write hp
  have hr1 : 0 < r.length := by cases r <;> simp_all [goodReply]
  obtain ⟨b, ph, es, k1, k2, k3⟩ := S5.read_pieces (signed := signed) (R := r) rs (s := { s with step := 3, phase := .reading 0 }) hs.len (by simp [h0]) hne (by simp [h0, hr]) hl (by simp [h0, hr1])
    (by intro s1 i1 i2 i3 i4 i5
        have := S5.parse_reply (signed := signed) i1 i2 hg hl i4 i3
        rw [this, if_pos i5])
  have hpok : S5.parse signed (S5.with { s with step := 3, phase := .reading 0 } b r.length ph) = .ok := by
    have := S5.parse_reply (signed := signed) (s := S5.with { s with step := 3, phase := .reading 0 } b r.length ph) (r := r) k1 rfl hg hl (by simp only [S5.with]; rw [k2]; exact List.prefix_rfl) hl
    rw [this, if_neg (by simp [S5.with])]
  have hrecv : S5.recv signed (S5.with { s with step := 3, phase := .reading 0 } b r.length ph) = some (S5.with { s with step := 3, phase := .reading 0 } b r.length .free, [.app]) := by
    simp only [S5.recv, hpok]; rfl
  have := S5.run_trans (S5.run_one hw) (k3 _ _ hrecv)
  exact ⟨_, es, by simpa using this, rfl⟩

/-- Writing the greeting. -/
theorem S5.greet {signed : Bool} {s : S5} (hs : s.Safe) (hp : s.phase = .free) (ht : s.step ≠ -1) : ∃ s1 es, S5.Run signed s [.tcpUp] s1 es ∧ s1.Safe ∧ s1.phase = .writing ∧ s1.step = 0 := by
  obtain ⟨b, bs, n, k1, k2, k3, k4⟩ := S5.sendMethod_eq (s := { s with step := 0, phase := .free }) hs.len
  have hup : s.step1 signed .tcpUp = some ({ s with buf := b, reqLen := n, resLen := 0, step := 0, phase := .writing }, [.wrote bs]) := by
    simp only [S5.step1, hp, if_true, if_neg ht]; exact k1
  exact ⟨_, _, S5.run_one hup, S5.safe_step hs hup, rfl, rfl⟩

/-- Reading an answer of two bytes in pieces: the client gets to the decision. -/
theorem S5.two_pieces {signed : Bool} {s : S5} {ms : List Bytes} {v x : Byte} (hs : s.Safe) (hk : s.step = 0 ∨ s.step = 1) (hp : s.phase = .writing) (hms : ms.flatten = [v, x]) (hm1 : ∀ x ∈ ms, x ≠ []) :
    ∃ b ph es, b.length = 64 ∧ b.getD 1 0 = x ∧ ∀ s2 fs, S5.recv signed { s with buf := b, resLen := 2, step := s.step + 1, phase := ph } = some (s2, fs) → S5.Run signed s (.writeDone true :: ms.map .readSome) s2 (es ++ fs) := by
  have hw : s.step1 signed (.writeDone true) = some ({ s with step := s.step + 1, phase := .reading 0 }, []) := by simp [S5.step1, hp]
  have h0 := hs.write hp
  obtain ⟨b, ph, es, j1, j2, j3⟩ := S5.read_pieces (signed := signed) (R := [v, x]) ms (s := { s with step := s.step + 1, phase := .reading 0 }) hs.len (by simp [h0]) hm1 (by simp [h0, hms]) (by simp) (by simp [h0])
    (by intro t i1 i2 i3 i4 i5
        refine S5.parse_short ?_ (by simpa using i5)
        simp only at i2
        omega)
  refine ⟨b, ph, es, j1, getD_one (x := v) (by simpa using j2), ?_⟩
  intro s2 fs h
  have := S5.run_trans (S5.run_one hw) (j3 s2 fs h)
  simpa using this

theorem S5.two_request {signed : Bool} {s : S5} {ms : List Bytes} {v : Byte} (hs : s.Safe) (hk : s.step = 0 ∨ s.step = 1) (hp : s.phase = .writing) (hms : ms.flatten = [v, 0]) (hm1 : ∀ x ∈ ms, x ≠ []) :
    ∃ s3 es, S5.Run signed s (.writeDone true :: ms.map .readSome) s3 es ∧ s3.Safe ∧ s3.phase = .writing ∧ s3.step = 2 := by
  obtain ⟨b, ph, es, k1, k2, k3⟩ := S5.two_pieces (signed := signed) hs hk hp hms hm1
  have hsafe : S5.Safe { s with buf := b, resLen := 2, step := 2, phase := .free } := hs.congr k1 rfl rfl rfl rfl (by simp) (by simp)
  obtain ⟨b3, n3, bs3, l1, l2⟩ := S5.sendRequest_safe hsafe
  have hrecv : S5.recv signed { s with buf := b, resLen := 2, step := s.step + 1, phase := ph } = some ({ s with buf := b3, resLen := 0, reqLen := n3, step := 2, phase := .writing }, [.wrote bs3]) := by
    rcases hk with h | h
    · have hpar : S5.parse signed { s with buf := b, resLen := 2, step := s.step + 1, phase := ph } = .request true := by simp only [S5.parse, k2, h]; rfl
      simp only [S5.recv, hpar]
      simp only [h]
      exact l1
    · have hpar : S5.parse signed { s with buf := b, resLen := 2, step := s.step + 1, phase := ph } = .request false := by simp only [S5.parse, k2, h]; rfl
      simp only [S5.recv, hpar]
      simp only [h]
      exact l1
  exact ⟨_, _, k3 _ _ hrecv, hs.congr l2 rfl rfl rfl rfl (by simp) (by simp), rfl, rfl⟩

theorem S5.two_auth {signed : Bool} {s : S5} {ms : List Bytes} {v : Byte} (hs : s.Safe) (hk : s.step = 0) (hp : s.phase = .writing) (hms : ms.flatten = [v, 2]) (hm1 : ∀ x ∈ ms, x ≠ []) :
    ∃ s3 es, S5.Run signed s (.writeDone true :: ms.map .readSome) s3 es ∧ s3.Safe ∧ s3.phase = .writing ∧ s3.step = 1 := by
  obtain ⟨b, ph, es, k1, k2, k3⟩ := S5.two_pieces (signed := signed) hs (Or.inl hk) hp hms hm1
  obtain ⟨b3, l1, l2⟩ := S5.sendAuth_eq (s := { s with buf := b, resLen := 2, step := s.step + 1, phase := ph }) k1 hs.auth
  have hpar : S5.parse signed { s with buf := b, resLen := 2, step := s.step + 1, phase := ph } = .auth := by simp only [S5.parse, k2, hk]; rfl
  have hrecv : S5.recv signed { s with buf := b, resLen := 2, step := s.step + 1, phase := ph } = S5.sendAuth { s with buf := b, resLen := 2, step := s.step + 1, phase := ph } := by simp only [S5.recv, hpar]
  rw [l1] at hrecv
  refine ⟨_, _, k3 _ _ hrecv, hs.congr l2 rfl rfl rfl rfl (by simp) (by simp), rfl, ?_⟩
  simp [hk]

theorem s5Set_append (es fs : List S5Ev) (b : Bool) : s5Set (es ++ fs) b = s5Set fs (s5Set es b) := by
  induction es generalizing b with
  | nil => rfl
  | cons e es ih => cases e <;> simp [s5Set, ih]

/-- step is -1 exactly if no target is configured. -/
theorem S5.step_run {signed : Bool} {as : List S5Act} {s : S5} {es : List S5Ev} (h : S5.Run signed S5.init as s es) : (s5Set es false = false → s.step = -1 ∧ s.phase = .free) ∧ (s5Set es false = true → 0 ≤ s.step) := by
  generalize h0 : S5.init = s0 at h
  induction h with
  | nil => subst h0; decide
  | snoc s1 s2 as a es fs hr hs ih =>
    subst h0
    rw [s5Set_append]
    generalize hb : s5Set es false = bb at ih
    have hsafe := S5.safe_run hr
    have setT : ∀ port t, s1.phase = .free → (s5Set (s1.setTarget port t).2 bb = false → (s1.setTarget port t).1.step = -1 ∧ (s1.setTarget port t).1.phase = .free) ∧ (s5Set (s1.setTarget port t).2 bb = true → 0 ≤ (s1.setTarget port t).1.step) := by
      intro port t hp
      cases t <;> simp only [S5.setTarget] <;> (repeat' split) <;> simp [s5Set, hp]
    cases a with
    | setTarget port t =>
      simp only [S5.step1] at hs
      split at hs
      · rename_i hc
        have := setT port t hc.1
        simp only [Option.some.injEq] at hs
        rw [hs] at this; exact this
      · cases hs
    | setTargetStale port t =>
      simp only [S5.step1] at hs
      split at hs
      · rename_i hc
        have := setT port t hc.1
        simp only [Option.some.injEq] at hs
        rw [hs] at this; exact this
      · cases hs
    | setAuth u p =>
      simp only [S5.step1] at hs
      (repeat' split at hs) <;> cases hs <;> exact ih
    | tcpUp =>
      simp only [S5.step1] at hs
      split at hs
      · split at hs
        · cases hs; exact ih
        · rename_i hne
          obtain ⟨b, bs, n, k1, k2, k3, k4⟩ := S5.sendMethod_eq (s := { s1 with step := 0 }) hsafe.len
          rw [k1] at hs
          cases hs
          simp only [s5Set]
          exact ⟨fun h => absurd (ih.1 h).1 hne, fun _ => by simp⟩
      · cases hs
    | tcpFail =>
      simp only [S5.step1] at hs
      split at hs <;> cases hs; exact ih
    | writeDone ok =>
      simp only [S5.step1] at hs
      split at hs
      · rename_i hp
        have hbt : bb = true := by
          cases bb
          · rw [(ih.1 rfl).2] at hp; cases hp
          · rfl
        have := ih.2 hbt
        split at hs <;> cases hs <;> simp only [s5Set, hbt] <;> exact ⟨fun h => (by cases h), fun _ => by (try simp only); omega⟩
      · cases hs
    | readErr =>
      simp only [S5.step1] at hs
      split at hs
      · rename_i off hp
        have hbt : bb = true := by
          cases bb
          · rw [(ih.1 rfl).2] at hp; cases hp
          · rfl
        have := ih.2 hbt
        cases hs; simp only [s5Set, hbt]; exact ⟨fun h => (by cases h), fun _ => this⟩
      · cases hs
    | readSome bs =>
      simp only [S5.step1] at hs
      split at hs
      · rename_i off hp
        have hbt : bb = true := by
          cases bb
          · rw [(ih.1 rfl).2] at hp; cases hp
          · rfl
        have hpos := ih.2 hbt
        split at hs
        · simp only [Option.bind_eq_bind] at hs
          rw [Option.bind_eq_some_iff] at hs
          obtain ⟨b, hbk, hs⟩ := hs
          rw [Option.bind_eq_some_iff] at hs
          obtain ⟨⟨s3, es3⟩, hrecv, hs⟩ := hs
          simp at hs
          obtain ⟨rfl, rfl⟩ := hs
          have hb64 : b.length = 64 := by have := (poke_some hbk).2; have := hsafe.len; omega
          generalize ht : ({ s1 with buf := b, resLen := s1.resLen + bs.length } : S5) = t at hrecv
          have htl : t.buf.length = 64 := by rw [← ht]; exact hb64
          have hts : t.step = s1.step := by rw [← ht]
          have hta : t.user.length + t.pass.length ≤ 60 := by rw [← ht]; exact hsafe.auth
          have htd : S5.Safe { t with phase := .free } := by rw [← ht]; exact hsafe.congr hb64 rfl rfl rfl rfl (by simp) (by simp)
          subst hbt
          simp only [S5.recv] at hrecv
          split at hrecv
          · rename_i skip _
            obtain ⟨b3, n3, bs3, l1, l2⟩ := S5.sendRequest_safe (s := { t with step := t.step + (if skip then 1 else 0) , phase := .free }) (htd.congr htl rfl rfl rfl rfl (by simp) (by simp))
            have l1' : S5.sendRequest { t with step := t.step + (if skip then 1 else 0) } = some _ := l1
            rw [l1'] at hrecv
            cases hrecv
            simp only [s5Set]
            refine ⟨fun h => (by cases h), fun _ => ?_⟩
            cases skip <;> simp <;> omega
          · obtain ⟨b3, l1, l2⟩ := S5.sendAuth_eq htl hta
            rw [l1] at hrecv
            cases hrecv
            simp only [s5Set]
            exact ⟨fun h => (by cases h), fun _ => by (try simp only); omega⟩
          · cases hrecv
            simp only [s5Set]
            exact ⟨fun h => (by cases h), fun _ => by (try simp only); omega⟩
          · cases hrecv
            simp only [s5Set]
            exact ⟨fun h => (by cases h), fun _ => by (try simp only); omega⟩
          · split at hrecv <;> cases hrecv <;> simp only [s5Set] <;> exact ⟨fun h => (by cases h), fun _ => by (try simp only); omega⟩
        · cases hs
      · cases hs

/-- C43: with a target configured and a proxy that follows the RFCs, the application protocol begins, for every target, and however the two answers of the proxy (no authentication; success) are cut into pieces, provided the reply fits the buffer. -/
theorem C43_succeeds {signed : Bool} {as : List S5Act} {s : S5} {es : List S5Ev} (h : S5.Run signed S5.init as s es) (hp : s.phase = .free) (ht : s5Set es false = true) {ms rs : List Bytes} {v : Byte} {r : Bytes} (hms : ms.flatten = [v, 0]) (hm1 : ∀ x ∈ ms, x ≠ [])
    (hrs : rs.flatten = r) (hr1 : ∀ x ∈ rs, x ≠ []) (hg : goodReply r = true) (hl : r.length ≤ 64) :
    ∃ s' es', S5.Run signed s ([.tcpUp] ++ (.writeDone true :: ms.map .readSome) ++ (.writeDone true :: rs.map .readSome)) s' (es' ++ [.app]) ∧ s'.phase = .free := by
  have h1 := (S5.step_run h).2 ht
  obtain ⟨s1, e1, r1, k1, k2, k3⟩ := S5.greet (signed := signed) (S5.safe_run h) hp (by omega)
  obtain ⟨s2, e2, r2, l1, l2, l3⟩ := S5.two_request (signed := signed) k1 (Or.inl k3) k2 hms hm1
  obtain ⟨s3, e3, r3, m1⟩ := S5.ask_pieces (signed := signed) l1 l3 l2 hr1 hrs hg hl
  exact ⟨s3, e1 ++ e2 ++ e3, by simpa using S5.run_trans (S5.run_trans r1 r2) r3, m1⟩

/-- C43: the same if the proxy demands user name and password and accepts them. -/
theorem C43_succeeds_auth {signed : Bool} {as : List S5Act} {s : S5} {es : List S5Ev} (h : S5.Run signed S5.init as s es) (hp : s.phase = .free) (ht : s5Set es false = true) {ms us rs : List Bytes} {v w : Byte} {r : Bytes} (hms : ms.flatten = [v, 2]) (hm1 : ∀ x ∈ ms, x ≠ [])
    (hus : us.flatten = [w, 0]) (hu1 : ∀ x ∈ us, x ≠ []) (hrs : rs.flatten = r) (hr1 : ∀ x ∈ rs, x ≠ []) (hg : goodReply r = true) (hl : r.length ≤ 64) :
    ∃ s' es', S5.Run signed s ([.tcpUp] ++ (.writeDone true :: ms.map .readSome) ++ (.writeDone true :: us.map .readSome) ++ (.writeDone true :: rs.map .readSome)) s' (es' ++ [.app]) ∧ s'.phase = .free := by
  have h1 := (S5.step_run h).2 ht
  obtain ⟨s1, e1, r1, k1, k2, k3⟩ := S5.greet (signed := signed) (S5.safe_run h) hp (by omega)
  obtain ⟨s2, e2, r2, l1, l2, l3⟩ := S5.two_auth (signed := signed) k1 k3 k2 hms hm1
  obtain ⟨s3, e3, r3, n1, n2, n3⟩ := S5.two_request (signed := signed) l1 (Or.inr l3) l2 hus hu1
  obtain ⟨s4, e4, r4, m1⟩ := S5.ask_pieces (signed := signed) n1 n3 n2 hr1 hrs hg hl
  exact ⟨s4, e1 ++ e2 ++ e3 ++ e4, by simpa using S5.run_trans (S5.run_trans (S5.run_trans r1 r2) r3) r4, m1⟩

/-! ### What is false -/

/-- C42 is false for a target configured as address after one configured as domain name: the request still names the domain. -/
theorem C42_fails_stale : ∃ as s es1 bs, S5.Run true S5.init as s (es1 ++ [.wrote bs]) ∧ es1 = [.target (.name [120]) 80, .target (.ip4 [1, 2, 3, 4]) 443, .wrote [5, 1, 0], .got [5, 0]] ∧ readRequest bs = some (.name [120], 80) :=
  ⟨_, _, [.target (.name [120]) 80, .target (.ip4 [1, 2, 3, 4]) 443, .wrote [5, 1, 0], .got [5, 0]], [5, 1, 0, 3, 1, 120, 0, 80], S5.exec_run (as := [.setTarget 80 (.name [120]), .setTargetStale 443 (.ip4 [1, 2, 3, 4]), .tcpUp, .writeDone true, .readSome [5, 0]]) rfl, rfl, by decide⟩

/-- If the proxy selects user name/password although only "no authentication" was offered, the client sends credentials of length 0, which RFC 1929 does not allow. -/
theorem C42_unoffered : ∃ as s es1 bs, S5.Run true S5.init as s (es1 ++ [.wrote bs]) ∧ es1 = [.target (.name [120]) 80, .wrote [5, 1, 0], .got [5, 2]] ∧ readAuth bs = none :=
  ⟨_, _, [.target (.name [120]) 80, .wrote [5, 1, 0], .got [5, 2]], [1, 0, 0], S5.exec_run (as := [.setTarget 80 (.name [120]), .tcpUp, .writeDone true, .readSome [5, 2]]) rfl, rfl, by decide⟩

/-- C43 is false for a reply with an unknown address type: after 6 bytes the application protocol begins, whatever is left of the reply goes to the application. -/
theorem C43_fails_atyp : ∃ as s es bs, S5.Run false S5.init as s (es ++ [.got bs, .app]) ∧ bs = [5, 0, 0, 2, 0, 0] ∧ goodReply bs = false :=
  ⟨_, _, [.target (.name [120]) 80, .wrote [5, 1, 0], .got [5, 0], .wrote [5, 1, 0, 3, 1, 120, 0, 80]], _, S5.exec_run (as := [.setTarget 80 (.name [120]), .tcpUp, .writeDone true, .readSome [5, 0], .writeDone true, .readSome [5, 0, 0, 2, 0, 0]]) rfl, rfl, by decide⟩

/-- C43 is false where char is signed for a reply with a domain name of 255 bytes: after 6 bytes of 262 the application protocol begins. -/
theorem C43_fails_signed : ∃ as s es bs, S5.Run true S5.init as s (es ++ [.got bs, .app]) ∧ bs = [5, 0, 0, 3, 255, 97] ∧ goodReply bs = false :=
  ⟨_, _, [.target (.name [120]) 80, .wrote [5, 1, 0], .got [5, 0], .wrote [5, 1, 0, 3, 1, 120, 0, 80]], _, S5.exec_run (as := [.setTarget 80 (.name [120]), .tcpUp, .writeDone true, .readSome [5, 0], .writeDone true, .readSome [5, 0, 0, 3, 255, 97]]) rfl, rfl, by decide⟩

/-- The result depends on the pieces if the server speaks first: the reply alone leads to success, the reply with the first byte of the server to failure. -/
theorem C43_coalesced : ∃ as s s' es es' r, goodReply r = true ∧ S5.Run true S5.init (as ++ [.readSome r]) s (es ++ [.got r, .app]) ∧ S5.Run true S5.init (as ++ [.readSome (r ++ [42])]) s' (es' ++ [.got (r ++ [42]), .failed]) :=
  ⟨[.setTarget 80 (.name [120]), .tcpUp, .writeDone true, .readSome [5, 0], .writeDone true], _, _, [.target (.name [120]) 80, .wrote [5, 1, 0], .got [5, 0], .wrote [5, 1, 0, 3, 1, 120, 0, 80]], [.target (.name [120]) 80, .wrote [5, 1, 0], .got [5, 0], .wrote [5, 1, 0, 3, 1, 120, 0, 80]], [5, 0, 0, 1, 9, 9, 9, 9, 0, 80], by decide, S5.exec_run rfl, S5.exec_run rfl⟩

/-! ### The hypotheses are met -/

/-- A negotiation with authentication for an IPv6 target, in pieces of one or two bytes, agreeing with the strict specification. -/
theorem C43_demo : ∃ as s es, S5.Run true S5.init as s (es ++ [.app]) ∧ (∀ a ∈ as, a.fresh = true) ∧ (s5Run goodReply ⟨none, none⟩ .free (es ++ [.app])).isSome :=
  ⟨_, _, [.auth [1, 2] [3], .target (.ip6 (List.replicate 16 7)) 80, .wrote [5, 2, 0, 2], .got [5], .got [2], .wrote [1, 2, 1, 2, 1, 3], .got [1, 0], .wrote ([5, 1, 0, 4] ++ List.replicate 16 7 ++ [0, 80]), .got [5, 0, 0], .got [3, 1, 97, 0], .got [80]],
    S5.exec_run (as := [.setAuth [1, 2] [3], .setTarget 80 (.ip6 (List.replicate 16 7)), .tcpUp, .writeDone true, .readSome [5], .readSome [2], .writeDone true, .readSome [1, 0], .writeDone true, .readSome [5, 0, 0], .readSome [3, 1, 97, 0], .readSome [80]]) rfl, by decide, by decide⟩

end StAsio
