import Verif.Lemmas.Socks

/-!
# C41: SOCKS4 request and reply
-/

set_option autoImplicit false

namespace StAsio

/-- C41, request (partial: for the first negotiation after the target was configured, see C41_fails_reconnect): whatever happened before, what the client writes when it is connected to the proxy is read by a SOCKS4 server as the configured address and port. -/
theorem C41_request_partial {as : List S4Act} {s : S4} {es es1 es2 : List S4Ev} {bs : Bytes} (h : S4.Run S4.init as s es) (he : es = es1 ++ .wrote bs :: es2) (hf : s4Fresh es1 false = true) :
    ∃ ip port, s4Target es1 none = some (ip, port) ∧ readSocks4 bs = some (ip, port, stAsio) := by
  obtain ⟨as1, s1, a, s2, fs1, fs2, gs, r1, r2, rfl, r4⟩ := S4.run_event h he
  have hi := S4.inv_run r1
  cases a with
  | tcpUp =>
    simp only [S4.step] at r2
    split at r2
    · split at r2
      · rename_i hr
        simp at r2
        have := r2.2.symm
        rcases fs1 with _ | ⟨x, _ | _⟩ <;> simp at this
      · rename_i hr
        simp at r2
        have := r2.2.symm
        rcases fs1 with _ | ⟨x, _ | _⟩ <;> simp at this
        obtain ⟨rfl, rfl⟩ := this
        simp only [List.append_nil] at hf ⊢
        cases ht : s4Target gs none with
        | none => exact absurd (hi.none ht) hr
        | some v =>
          obtain ⟨k1, k2, k3, k4⟩ := hi.some v.1 v.2 ht
          refine ⟨v.1, v.2, rfl, ?_⟩
          rw [k3, List.take_of_length_le (by rw [hi.len]; omega), k4 hf]
          exact readSocks4_fill k2 k1
    · cases r2
  | setTarget port t =>
    simp only [S4.step] at r2
    exfalso
    split at r2
    · (repeat' split at r2) <;> simp at r2
      all_goals (try (obtain ⟨_, _, _, r2⟩ := r2))
      all_goals (try (have := r2.2.symm))
      all_goals (rcases fs1 with _ | ⟨x, _ | _⟩ <;> simp_all)
    · cases r2
  | tcpFail => simp only [S4.step] at r2; split at r2 <;> simp at r2
  | writeDone ok =>
    simp only [S4.step] at r2
    exfalso
    (repeat' split at r2) <;> simp at r2
    have := r2.2.symm
    rcases fs1 with _ | ⟨x, _ | _⟩ <;> simp at this
  | readDone bs' =>
    simp only [S4.step, Option.bind_eq_bind] at r2
    exfalso
    split at r2
    · rw [Option.bind_eq_some_iff] at r2
      obtain ⟨b, _, r2⟩ := r2
      split at r2 <;> simp at r2 <;> have := r2.2.symm <;> rcases fs1 with _ | ⟨x, _ | ⟨y, _ | _⟩⟩ <;> simp at this
    · cases r2
  | readErr =>
    simp only [S4.step] at r2
    exfalso
    split at r2 <;> simp at r2
    have := r2.2.symm
    rcases fs1 with _ | ⟨x, _ | _⟩ <;> simp at this

/-- C41, reply: every reply read has 8 bytes, and it is followed at once by the start of the application protocol if its code is 90 and by the end of the link if it is not. -/
theorem C41_reply {as : List S4Act} {s : S4} {es es1 es2 : List S4Ev} {bs : Bytes} (h : S4.Run S4.init as s es) (he : es = es1 ++ .reply bs :: es2) :
    bs.length = 8 ∧ ∃ es3, es2 = (if bs[1]? = some 90 then S4Ev.app else S4Ev.failed) :: es3 := by
  obtain ⟨as1, s1, a, s2, fs1, fs2, gs, r1, r2, rfl, r4⟩ := S4.run_event h he
  have hi := S4.inv_run r1
  cases a with
  | readDone bs' =>
    simp only [S4.step, Option.bind_eq_bind] at r2
    split at r2
    · rename_i hc
      rw [Option.bind_eq_some_iff] at r2
      obtain ⟨b, hb, r2⟩ := r2
      have hb1 : b[1]? = bs'[1]? := by
        simp only [poke] at hb
        split at hb
        · simp only [Option.some.injEq] at hb
          rw [← hb]
          simp [List.getElem?_append, hc.2]
        · cases hb
      split at r2
      · rename_i h90
        simp at r2
        have := r2.2.symm
        rcases fs1 with _ | ⟨x, _ | ⟨y, _ | _⟩⟩ <;> simp at this
        obtain ⟨rfl, rfl⟩ := this
        refine ⟨hc.2, ?_⟩
        rw [hb1] at h90
        rw [if_neg h90]
        obtain ⟨t, ht⟩ := r4
        exact ⟨t, by rw [← ht]; rfl⟩
      · rename_i h90
        simp at r2
        have := r2.2.symm
        rcases fs1 with _ | ⟨x, _ | ⟨y, _ | _⟩⟩ <;> simp at this
        obtain ⟨rfl, rfl⟩ := this
        refine ⟨hc.2, ?_⟩
        rw [hb1] at h90
        rw [if_pos (by simpa using h90)]
        obtain ⟨t, ht⟩ := r4
        exact ⟨t, by rw [← ht]; rfl⟩
    · cases r2
  | setTarget port t =>
    simp only [S4.step] at r2
    exfalso
    split at r2
    · (repeat' split at r2) <;> simp at r2
      all_goals (try (obtain ⟨_, _, _, r2⟩ := r2))
      all_goals (try (have := r2.2.symm))
      all_goals (rcases fs1 with _ | ⟨x, _ | _⟩ <;> simp_all)
    · cases r2
  | tcpUp =>
    simp only [S4.step] at r2
    exfalso
    (repeat' split at r2) <;> simp at r2 <;> have := r2.2.symm <;> rcases fs1 with _ | ⟨x, _ | _⟩ <;> simp at this
  | tcpFail => simp only [S4.step] at r2; split at r2 <;> simp at r2
  | writeDone ok =>
    simp only [S4.step] at r2
    exfalso
    (repeat' split at r2) <;> simp at r2
    have := r2.2.symm
    rcases fs1 with _ | ⟨x, _ | _⟩ <;> simp at this
  | readErr =>
    simp only [S4.step] at r2
    exfalso
    split at r2 <;> simp at r2
    have := r2.2.symm
    rcases fs1 with _ | ⟨x, _ | _⟩ <;> simp at this

/-- C41: through the proxy, the application protocol begins only right after a reply with code 90. -/
theorem C41_app {as : List S4Act} {s : S4} {es es1 es2 : List S4Ev} (h : S4.Run S4.init as s es) (he : es = es1 ++ .app :: es2) :
    ∃ es0 bs, es1 = es0 ++ [.reply bs] ∧ bs.length = 8 ∧ bs[1]? = some 90 := by
  have key : ∃ es0 bs, es1 = es0 ++ [S4Ev.reply bs] := by
    obtain ⟨as1, s1, a, s2, fs1, fs2, gs, r1, r2, rfl, r4⟩ := S4.run_event h he
    cases a with
    | readDone bs' =>
      simp only [S4.step, Option.bind_eq_bind] at r2
      split at r2
      · rw [Option.bind_eq_some_iff] at r2
        obtain ⟨b, hb, r2⟩ := r2
        split at r2 <;> simp at r2 <;> have := r2.2.symm <;> rcases fs1 with _ | ⟨x, _ | ⟨y, _ | _⟩⟩ <;> simp at this
        obtain ⟨rfl, _⟩ := this
        exact ⟨gs, bs', rfl⟩
      · cases r2
    | setTarget port t =>
      simp only [S4.step] at r2
      exfalso
      split at r2
      · (repeat' split at r2) <;> simp at r2
        all_goals (try (obtain ⟨_, _, _, r2⟩ := r2))
        all_goals (try (have := r2.2.symm))
        all_goals (rcases fs1 with _ | ⟨x, _ | _⟩ <;> simp_all)
      · cases r2
    | tcpUp =>
      simp only [S4.step] at r2
      exfalso
      (repeat' split at r2) <;> simp at r2 <;> have := r2.2.symm <;> rcases fs1 with _ | ⟨x, _ | _⟩ <;> simp at this
    | tcpFail => simp only [S4.step] at r2; split at r2 <;> simp at r2
    | writeDone ok =>
      simp only [S4.step] at r2
      exfalso
      (repeat' split at r2) <;> simp at r2
      have := r2.2.symm
      rcases fs1 with _ | ⟨x, _ | _⟩ <;> simp at this
    | readErr =>
      simp only [S4.step] at r2
      exfalso
      split at r2 <;> simp at r2
      have := r2.2.symm
      rcases fs1 with _ | ⟨x, _ | _⟩ <;> simp at this
  obtain ⟨es0, bs, rfl⟩ := key
  have he' : es = es0 ++ .reply bs :: (.app :: es2) := by rw [he]; simp
  obtain ⟨h1, es3, h2⟩ := C41_reply h he'
  refine ⟨es0, bs, rfl, h1, ?_⟩
  split at h2
  · assumption
  · simp at h2

/-- C41: no write leaves the buffer (it would be no step): in every reachable state every call and every completion that can happen is a step. -/
theorem C41_safe {as : List S4Act} {s : S4} {es : List S4Ev} (h : S4.Run S4.init as s es) :
    (s.phase = .free → (∀ port t, port < 65536 → t.sized = true → (s.step (.setTarget port t)).isSome) ∧ (s.step .tcpUp).isSome) ∧
    (s.phase = .writing → ∀ ok, (s.step (.writeDone ok)).isSome) ∧
    (∀ off, s.phase = .reading off → off = 0 ∧ (∀ bs : Bytes, bs.length = 8 → (s.step (.readDone bs)).isSome) ∧ (s.step .readErr).isSome) := by
  have hi := S4.inv_run h
  refine ⟨fun hp => ⟨?_, ?_⟩, ?_, ?_⟩
  · intro port t hport ht
    cases t with
    | ip4 ip =>
      simp [SocksTarget.sized] at ht
      simp only [S4.step, hp, ht, hport, and_self, if_true]
      split
      · rfl
      · rw [S4.fill_eq (by simpa using hi.len) ht]; rfl
    | ip6 ip => simp [SocksTarget.sized] at ht; simp [S4.step, hp, ht, hport]
    | name n => simp [S4.step, hp, hport]
  · simp only [S4.step, hp, if_true]; split <;> rfl
  · intro hp ok; cases ok <;> simp [S4.step, hp]
  · intro off hp
    have h0 : off = 0 := by
      clear hi
      generalize hs0 : S4.init = s0 at h
      induction h with
      | nil => subst hs0; simp [S4.init] at hp
      | snoc s1 s2 as a es fs hr hs ih =>
        cases a <;> simp only [S4.step] at hs
        case setTarget port t =>
          split at hs
          · rename_i hc
            split at hs
            · split at hs
              · split at hs
                · cases hs; rw [hc.1] at hp; cases hp
                · rw [Option.map_eq_some_iff] at hs
                  obtain ⟨x, hx, hxe⟩ := hs
                  cases hxe
                  simp only [S4.fill, Option.bind_eq_bind, Option.bind_eq_some_iff] at hx
                  obtain ⟨_, _, _, _, _, _, _, _, _, _, hx⟩ := hx
                  cases hx
                  simp only at hp
                  rw [hc.1] at hp; cases hp
              · cases hs
            · split at hs
              · cases hs; simp only at hp; rw [hc.1] at hp; cases hp
              · cases hs
            · cases hs; simp only at hp; rw [hc.1] at hp; cases hp
          · cases hs
        case readDone bs =>
          split at hs
          · simp only [Option.bind_eq_bind] at hs
            rw [Option.bind_eq_some_iff] at hs
            obtain ⟨b, hb, hs⟩ := hs
            split at hs <;> cases hs <;> cases hp
          · cases hs
        all_goals ((repeat' split at hs) <;> cases hs <;> simp_all)
    subst h0
    refine ⟨rfl, ?_, by simp [S4.step, hp]⟩
    intro bs hb
    simp only [S4.step, hp, hb, and_self, if_true]
    have : poke s.buf 0 bs = some (bs ++ s.buf.drop 8) := by simp [poke, hb, hi.len]
    rw [this]
    simp only [Option.bind_eq_bind, Option.bind_some]
    split <;> rfl

/-- C41 is false when the client connects to the proxy a second time: the reply of the proxy was stored over the request, the first 8 bytes of the second request are that reply. -/
theorem C41_fails_reconnect : ∃ as s es es2 bs, S4.Run S4.init as s es ∧ es = [.target [1, 2, 3, 4] 80, .wrote [4, 1, 0, 80, 1, 2, 3, 4, 115, 116, 95, 97, 115, 105, 111, 0], .reply [0, 90, 0, 0, 0, 0, 0, 0], .app] ++ .wrote bs :: es2 ∧
    readSocks4 bs = none :=
  ⟨_, _, _, _, _, S4.exec_run (as := [.setTarget 80 (.ip4 [1, 2, 3, 4]), .tcpUp, .writeDone true, .readDone [0, 90, 0, 0, 0, 0, 0, 0], .tcpUp]) rfl, rfl, by decide⟩

/-- The hypotheses of C41_request_partial are met: a second negotiation after the first attempt failed before a reply, and one after a new configuration. -/
theorem C41_demo : ∃ as s es es1 es2 bs, S4.Run S4.init as s es ∧ es = es1 ++ .wrote bs :: es2 ∧ s4Fresh es1 false = true ∧ readSocks4 bs = some ([9, 8, 7, 6], 8080, stAsio) :=
  ⟨_, _, _, [.target [1, 2, 3, 4] 80, .wrote [4, 1, 0, 80, 1, 2, 3, 4, 115, 116, 95, 97, 115, 105, 111, 0], .reply [0, 90, 0, 0, 0, 0, 0, 0], .app, .target [9, 8, 7, 6] 8080], [], _,
    S4.exec_run (as := [.setTarget 80 (.ip4 [1, 2, 3, 4]), .tcpUp, .writeDone true, .readDone [0, 90, 0, 0, 0, 0, 0, 0], .setTarget 8080 (.ip4 [9, 8, 7, 6]), .tcpUp]) rfl, rfl, by decide, by decide⟩

end StAsio
