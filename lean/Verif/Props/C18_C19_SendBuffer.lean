import Verif.Lemmas.SendBuffer
/-!
# C18, C19, C53: the limit of the send buffer

`Q.Sound`: the byte count of the buffer is that of its messages (C16).
-/
set_option autoImplicit false
namespace StAsio
variable {α : Type}

/-- C18. Without shrinking: a call is refused exactly if it may not overflow and the pending bytes have reached the limit (or if
packing failed, for the functions that report it); then nothing changes. Otherwise its messages, and nothing else, are
added behind (or, with priority, in front of) the pending ones, the strand is asked to send, and the pending bytes grow by their size. -/
theorem C18_refused_iff (sz : α → Nat) (c : SendCfg) (hc : c.shrink = none) (q : Q α) (hq : q.Sound sz) (req : SendReq α) (canOverflow prior : Bool)
    (hf : pending sz q + sumSize sz (req.messages sz) < 2 ^ 64) :
    ∃ o, sendCall sz c q req canOverflow prior = some o ∧
      (o.ret = false ↔ (canOverflow = false ∧ c.limit ≤ pending sz q) ∨ req.packFailed = true) ∧
      (o.ret = false → o.q = q ∧ o.kicked = false) ∧ o.discarded = none ∧
      (o.ret = true → o.q.items = (if prior then req.messages sz ++ q.items else q.items ++ req.messages sz) ∧
        o.q.Sound sz ∧ pending sz o.q = pending sz q + sumSize sz (req.messages sz) ∧ (req.messages sz ≠ [] → o.kicked = true)) := by
  have hs : (if canOverflow then (q, none, true) else shrinkSendBuffer sz c q) = (q, none, canOverflow || decide (pending sz q < c.limit)) := by
    cases canOverflow
    · simp only [Bool.false_eq_true, if_false, shrinkSendBuffer, hc, sendBufferAvailable, Bool.false_or]
      unfold Q.Sound at hq
      rw [hq]; rfl
    · simp
  unfold sendCall
  simp only [hs]
  by_cases hl : (canOverflow || decide (pending sz q < c.limit)) = true
  · have hnl : ¬ (canOverflow = false ∧ c.limit ≤ pending sz q) := by
      intro ⟨a, b⟩; simp [a] at hl; omega
    rw [if_pos hl]
    cases req with
    | one m fits =>
      refine ⟨_, rfl, ?_, by simp, rfl, ?_⟩
      · simp only [SendReq.packFailed, Bool.true_eq_false, Bool.false_eq_true, or_false, false_iff]; exact hnl
      · intro _
        simp only [doDirectOne, SendReq.messages] at hf ⊢
        by_cases h0 : sz m = 0
        · simp [h0, hq, sumSize]
        · have h1 : 0 < sz m := by omega
          cases fits
          · cases prior <;> simp [h0, Q.enqueue, Q.enqueueFront, hq, sumSize]
          · simp only [h1, and_self, if_true, sumSize_cons, sumSize_nil, pending, Q.Sound] at hf hq
            cases prior
            · simp only [h0, if_false, Bool.false_eq_true, Q.enqueue, if_true, h1, and_self, Q.Sound, pending, sumSize_append, sumSize_cons, sumSize_nil, w64add]
              refine ⟨trivial, by omega, trivial, by simp⟩
            · simp only [h0, if_false, Q.enqueueFront, if_true, h1, and_self, Q.Sound, pending, sumSize_cons, sumSize_nil, w64add]
              refine ⟨by simp, by omega, by omega, by simp⟩
    | list ms =>
      simp only [SendReq.messages] at hf ⊢
      rw [doDirectList_eq]
      refine ⟨_, rfl, ?_, by simp, rfl, ?_⟩
      · simp only [SendReq.packFailed, Bool.true_eq_false, Bool.false_eq_true, or_false, false_iff]; exact hnl
      · intro _
        have := doDirectList_sound sz hq hf (prior := prior) (doDirectList_eq sz q ms prior)
        exact ⟨rfl, this.1, this.2, fun _ => rfl⟩
    | packed r =>
      cases r with
      | none => refine ⟨_, rfl, by simp [SendReq.packFailed], by simp, rfl, by simp⟩
      | some ms =>
        simp only [SendReq.messages, Option.getD_some] at hf ⊢
        rw [doDirectList_eq]
        refine ⟨_, rfl, ?_, by simp, rfl, ?_⟩
        · simp only [SendReq.packFailed, Bool.true_eq_false, Bool.false_eq_true, or_false, false_iff]; exact hnl
        · intro _
          have := doDirectList_sound sz hq hf (prior := prior) (doDirectList_eq sz q ms prior)
          exact ⟨rfl, this.1, this.2, fun _ => rfl⟩
  · rw [if_neg hl]
    refine ⟨_, rfl, ?_, by simp, rfl, by simp⟩
    simp at hl
    simp [hl]

/-- Non-vacuity: a buffer with 5 bytes and limit 5 refuses, with limit 6 it accepts 100 bytes more. -/
example : (∃ o, sendCall id ⟨5, none⟩ (⟨[2, 3], 5⟩ : Q Nat) (.one 100 true) false false = some o ∧ o.ret = false) ∧
    (∃ o, sendCall id ⟨6, none⟩ (⟨[2, 3], 5⟩ : Q Nat) (.one 100 true) false false = some o ∧ o.ret = true ∧ o.q = ⟨[2, 3, 100], 105⟩) ∧
    (∃ o, sendCall id ⟨5, none⟩ (⟨[2, 3], 5⟩ : Q Nat) (.packed (some [1, 1])) true true = some o ∧ o.ret = true ∧ o.q = ⟨[1, 1, 2, 3], 7⟩) :=
  ⟨⟨_, rfl, rfl⟩, ⟨_, rfl, rfl, rfl⟩, ⟨_, rfl, rfl, rfl⟩⟩

/-- C18, the bound: with `n` sending threads that never override the limit, whatever the interleaving of checks, enqueuings, writes and
pops, the pending bytes never exceed limit - 1 + n * (size of the largest request). For one thread this is the bound of C18. -/
theorem C18_bound (sz : α → Nat) (c : SendCfg) (hc : c.shrink = none) (n M : Nat) (hM : c.limit - 1 + n * M < 2 ^ 64) (as : List (SbAct α))
    (ha : ∀ ms prior, SbAct.put ms prior ∈ as → sumSize sz ms ≤ M) (s : SbSt α) (h : SbSt.run sz c n SbSt.init as = some s) :
    pending sz s.q ≤ c.limit - 1 + n * M ∧ s.q.Sound sz := by
  have := SbSt.run_inv sz c n M hM (by simp [hc]) as ha (s := SbSt.init) ⟨rfl, by simp [SbSt.init, pending, Q.init, sumSize], by simp [SbSt.init]⟩ h
  have hb := this.bound
  exact ⟨by omega, this.sound⟩

/-- Non-vacuity: the bound is reached (two threads, limit 5, messages of 4 bytes). -/
example : SbSt.run id ⟨5, none⟩ 2 (SbSt.init : SbSt Nat) [.check, .put [4] false, .check, .check, .put [4] false, .put [4] true] =
    some ⟨⟨[4, 4, 4], 12⟩, 0⟩ ∧ (5 - 1 + 2 * 4 = 12) := by
  constructor <;> decide +kernel

/-- The bound also holds with shrinking if calc_shrink_size, unless it returns 0, discards enough to get below the limit. -/
theorem C19_bound (sz : α → Nat) (c : SendCfg) (n M : Nat) (hM : c.limit - 1 + n * M < 2 ^ 64)
    (hc : ∀ f, c.shrink = some f → ∀ p, c.limit ≤ p → p ≤ c.limit - 1 + n * M → f p ≠ 0 → p - f p < c.limit) (as : List (SbAct α))
    (ha : ∀ ms prior, SbAct.put ms prior ∈ as → sumSize sz ms ≤ M) (s : SbSt α) (h : SbSt.run sz c n SbSt.init as = some s) :
    pending sz s.q ≤ c.limit - 1 + n * M := by
  have := SbSt.run_inv sz c n M hM hc as ha (s := SbSt.init) ⟨rfl, by simp [SbSt.init, pending, Q.init, sumSize], by simp [SbSt.init]⟩ h
  have hb := this.bound
  omega

/-- In particular for the default calc_shrink_size (a third), if the requests are small compared to the limit. -/
theorem C19_bound_default (sz : α → Nat) (limit n M : Nat) (hM : limit + n * M < 2 ^ 64) (hs : 2 * (n * M) < limit) (as : List (SbAct α))
    (ha : ∀ ms prior, SbAct.put ms prior ∈ as → sumSize sz ms ≤ M) (s : SbSt α) (h : SbSt.run sz ⟨limit, some defaultShrink⟩ n SbSt.init as = some s) :
    pending sz s.q ≤ limit - 1 + n * M := by
  refine C19_bound sz ⟨limit, some defaultShrink⟩ n M (by simp only; omega) ?_ as ha s h
  intro f hf p hp hp2 _
  simp only [Option.some.injEq] at hf
  subst hf
  simp only [defaultShrink] at *
  omega

/-- Non-vacuity of the bounds with shrinking: limit 10, one thread, messages of 4 bytes; the fourth one shrinks. -/
example : 2 * (1 * 4) < 10 ∧ SbSt.run id ⟨10, some defaultShrink⟩ 1 (SbSt.init : SbSt Nat)
    [.check, .put [4] false, .check, .put [3] false, .check, .put [4] false, .check, .put [2] false] = some ⟨⟨[3, 4, 2], 9⟩, 0⟩ := by
  constructor <;> decide +kernel

theorem SbSt.run_append (sz : α → Nat) (c : SendCfg) (n : Nat) (s : SbSt α) (as bs : List (SbAct α)) :
    s.run sz c n (as ++ bs) = (s.run sz c n as).bind (fun s => s.run sz c n bs) := by
  induction as generalizing s with
  | nil => rfl
  | cons a as ih =>
    simp only [List.cons_append, SbSt.run]
    cases s.step sz c n a with
    | none => rfl
    | some s1 => exact ih s1

/-- Without that condition shrinking does not bound the buffer: if calc_shrink_size returns 1, one message is discarded per call, however full the
buffer is; requests of two one-byte messages then pile up without limit. -/
theorem C19_unbounded_without (k : Nat) (hk : k < 2 ^ 32) : ∃ as s, (∀ ms prior, SbAct.put ms prior ∈ as → sumSize id ms ≤ 2) ∧
    SbSt.run id ⟨1, some (fun _ => 1)⟩ 1 (SbSt.init : SbSt Nat) as = some s ∧ pending id s.q = k + 2 := by
  have : ∀ k < 2 ^ 32, ∃ as, (∀ ms prior, SbAct.put ms prior ∈ as → sumSize id ms ≤ 2) ∧
      SbSt.run id ⟨1, some (fun _ => 1)⟩ 1 (SbSt.init : SbSt Nat) as = some ⟨⟨List.replicate (k + 2) 1, k + 2⟩, 0⟩ := by
    intro k
    induction k with
    | zero => intro _; exact ⟨[.check, .put [1, 1] false], by intro ms prior h; simp at h; simp [h, sumSize], by decide +kernel⟩
    | succ k ih =>
      intro hk
      obtain ⟨as, h1, h2⟩ := ih (by omega)
      refine ⟨as ++ [.check, .put [1, 1] false], ?_, ?_⟩
      · intro ms prior h
        simp at h
        rcases h with h | h
        · exact h1 ms prior h
        · simp [h, sumSize]
      · rw [SbSt.run_append, h2]
        have hl : List.replicate (k + 2) 1 = 1 :: List.replicate (k + 1) 1 := rfl
        have hr : List.replicate (k + 1) 1 ++ [1, 1] = List.replicate (k + 1 + 2) 1 := by
          have : [1, 1] = List.replicate 2 1 := rfl
          rw [this, List.replicate_append_replicate]
        simp only [Option.bind_some, SbSt.run, SbSt.step, shrinkSendBuffer]
        simp only [hl, Q.moveOutBytes, npos, Q.scanBytes, Q.splice, doDirectList_eq]
        simp [w64add, w64sub, sumSize, hr]
        omega
  obtain ⟨as, h1, h2⟩ := this k hk
  exact ⟨as, _, h1, h2, by simp [pending, sumSize]⟩

/-- C19. With shrinking, a call that may not overflow and meets a full buffer: if calc_shrink_size returns 0 it is refused and nothing is discarded.
Otherwise the shortest prefix of the oldest messages reaching that size (at least one message, all if there are not enough) is discarded and given
to on_msg_discard, the rest stays in order, and the call goes on as in C18. If the buffer is not full nothing is discarded. -/
theorem C19_shrink (sz : α → Nat) (limit : Nat) (f : Nat → Nat) (q : Q α) (hq : q.Sound sz) (req : SendReq α) (prior : Bool)
    (hf : pending sz q + sumSize sz (req.messages sz) < 2 ^ 64) (hsz : f (pending sz q) ≠ 2 ^ 64 - 1) :
    ∃ o, sendCall sz ⟨limit, some f⟩ q req false prior = some o ∧
      (pending sz q < limit → o.discarded = none ∧ (o.ret = false ↔ req.packFailed = true) ∧
        (o.ret = true → o.q.items = if prior then req.messages sz ++ q.items else q.items ++ req.messages sz)) ∧
      (limit ≤ pending sz q → f (pending sz q) = 0 → o.ret = false ∧ o.q = q ∧ o.discarded = none ∧ o.kicked = false) ∧
      (limit ≤ pending sz q → f (pending sz q) ≠ 0 → ∃ p r, ShortestPrefix sz (f (pending sz q)) q.items p r ∧ o.discarded = some p ∧
        (o.ret = false ↔ req.packFailed = true) ∧
        (o.ret = false → o.q.items = r) ∧
        (o.ret = true → o.q.items = if prior then req.messages sz ++ r else r ++ req.messages sz)) ∧
      o.q.Sound sz := by
  have ht : q.total = pending sz q := hq
  -- the part behind the limit check is that of C18 with an overriding call
  have key : ∀ (q' : Q α) (d : Option (List α)), q'.Sound sz → pending sz q' ≤ pending sz q →
      shrinkSendBuffer sz ⟨limit, some f⟩ q = (q', d, true) →
      ∃ o, sendCall sz ⟨limit, some f⟩ q req false prior = some o ∧ o.discarded = d ∧ (o.ret = false ↔ req.packFailed = true) ∧ (o.ret = false → o.q.items = q'.items) ∧
        (o.ret = true → o.q.items = if prior then req.messages sz ++ q'.items else q'.items ++ req.messages sz) ∧ o.q.Sound sz := by
    intro q' d hq' hle hsh
    obtain ⟨o, h1, h2, h3, _, h4⟩ := C18_refused_iff sz ⟨limit, none⟩ rfl q' hq' req true prior (by omega)
    refine ⟨{ o with discarded := d }, ?_, rfl, by simpa using h2, fun h => by rw [← (h3 h).1], fun h => (h4 h).1, ?_⟩
    · unfold sendCall at h1 ⊢
      simp only [if_true] at h1
      simp only [Bool.false_eq_true, if_false, hsh, if_true]
      cases req with
      | one m fits => simp only [Option.some.injEq] at h1 ⊢; rw [← h1]
      | list ms => simp only at h1 ⊢; rw [doDirectList_eq] at h1 ⊢; simp only [Option.map_some, Option.some.injEq] at h1 ⊢; rw [← h1]
      | packed r =>
        cases r with
        | none => simp only [Option.some.injEq] at h1 ⊢; rw [← h1]
        | some ms => simp only at h1 ⊢; rw [doDirectList_eq] at h1 ⊢; simp only [Option.map_some, Option.some.injEq] at h1 ⊢; rw [← h1]
    · cases hr : o.ret
      · have := (h3 hr).1; simp only; rw [this]; exact hq'
      · exact (h4 hr).2.1
  by_cases hl : pending sz q < limit
  · obtain ⟨o, h1, h2, h3, _, h4, h5⟩ := key q none hq (Nat.le_refl _) (by simp [shrinkSendBuffer, ht, hl])
    exact ⟨o, h1, fun _ => ⟨h2, h3, h4⟩, fun h => by omega, fun h => by omega, h5⟩
  · by_cases h0 : f (pending sz q) = 0
    · refine ⟨{ q := q, ret := false, discarded := none, kicked := false }, ?_, fun h => by omega, fun _ _ => ⟨rfl, rfl, rfl, rfl⟩, fun _ h => absurd h0 h, hq⟩
      simp [sendCall, shrinkSendBuffer, ht, hl, h0]
    · obtain ⟨m1, p, m2, m3, m4⟩ := moveOutBytes_sound sz hq (by omega) [] (f (pending sz q))
      rw [if_neg hsz] at m4
      simp only [List.nil_append] at m2
      have hrem := moveOutBytes_removes sz hq (by omega) [] (f (pending sz q))
      obtain ⟨o, h1, h2, h3, h3', h4, h5⟩ := key (q.moveOutBytes sz [] (f (pending sz q))).1 (some p) m1 (by omega) (by
        simp only [shrinkSendBuffer, ht, hl, h0, if_false, m2])
      exact ⟨o, h1, fun h => by omega, fun _ h => absurd h h0, fun _ _ => ⟨p, _, m4, h2, h3, h3', h4⟩, h5⟩

/-- Non-vacuity: the default shrinks a third away. -/
example : ∃ o, sendCall id ⟨9, some defaultShrink⟩ (⟨[1, 2, 3, 4], 10⟩ : Q Nat) (.one 5 true) false false = some o ∧ o.ret = true ∧ o.discarded = some [1, 2] ∧ o.q = ⟨[3, 4, 5], 12⟩ :=
  ⟨_, rfl, rfl, rfl, rfl⟩

/-- C53: a safe send that returns true had its messages accepted exactly once, by its last call; if it returns false, none of
its calls was accepted (and the socket was not ready); all calls before the last one were refused. -/
theorem C53_safe_send (sz : α → Nat) (c : SendCfg) (req : SendReq α) (canOverflow prior : Bool) (env : List (Attempt α)) (r : Option Bool) (os : List (SendOut α))
    (h : safeSend sz c req canOverflow prior env = some (r, os)) :
    (r = some true → ∃ pre o, os = pre ++ [o] ∧ o.ret = true ∧ ∀ x ∈ pre, x.ret = false) ∧
    (r = some false → (∀ x ∈ os, x.ret = false) ∧ ∃ a, env[os.length - 1]? = some a ∧ a.ready = false) ∧
    (r = none → ∀ x ∈ os, x.ret = false) := by
  induction env generalizing r os with
  | nil => simp [safeSend] at h; obtain ⟨rfl, rfl⟩ := h; simp
  | cons a env ih =>
    simp only [safeSend, Option.bind_eq_bind] at h
    rw [Option.bind_eq_some_iff] at h
    obtain ⟨o, h1, h2⟩ := h
    cases hr : o.ret
    · rw [hr] at h2
      cases hre : a.ready
      · simp [hre] at h2
        obtain ⟨rfl, rfl⟩ := h2
        simp [hr, hre]
      · simp only [hre, Bool.false_eq_true, if_false, if_true] at h2
        rw [Option.bind_eq_some_iff] at h2
        obtain ⟨⟨r1, os1⟩, h3, h4⟩ := h2
        simp at h4
        obtain ⟨rfl, rfl⟩ := h4
        obtain ⟨i1, i2, i3⟩ := ih r1 os1 h3
        refine ⟨?_, ?_, ?_⟩
        · intro hx
          obtain ⟨pre, o', e1, e2, e3⟩ := i1 hx
          refine ⟨o :: pre, o', by simp [e1], e2, ?_⟩
          intro x hm
          simp at hm
          rcases hm with rfl | hm
          · exact hr
          · exact e3 x hm
        · intro hx
          obtain ⟨e1, a', e2, e3⟩ := i2 hx
          refine ⟨by intro x hm; simp at hm; rcases hm with rfl | hm; exact hr; exact e1 x hm, a', ?_, e3⟩
          cases os1 with
          | nil =>
            -- a finished loop made at least one call
            exfalso
            cases env with
            | nil => simp [safeSend] at h3; simp [hx] at h3
            | cons b env =>
              simp only [safeSend, Option.bind_eq_bind] at h3
              rw [Option.bind_eq_some_iff] at h3
              obtain ⟨ob, hb1, hb2⟩ := h3
              cases hob : ob.ret <;> simp only [hob, if_true, Bool.false_eq_true, if_false] at hb2
              · cases hbr : b.ready <;> simp only [hbr, if_true, Bool.false_eq_true, if_false] at hb2
                · simp at hb2
                · rw [Option.bind_eq_some_iff] at hb2
                  obtain ⟨⟨x, y⟩, _, hb3⟩ := hb2
                  simp at hb3
              · simp at hb2
          | cons z zs => simpa using e2
        · intro hx x hm
          simp at hm
          rcases hm with rfl | hm
          · exact hr
          · exact i3 hx x hm
    · simp only [hr, if_true] at h2
      simp at h2
      obtain ⟨rfl, rfl⟩ := h2
      refine ⟨fun _ => ⟨[], o, by simp, hr, by simp⟩, by simp, by simp⟩

/-- Non-vacuity: refused twice because the buffer is full, then accepted. -/
example : ∃ os, safeSend id ⟨5, none⟩ (.one 3 true) false false [⟨(⟨[5], 5⟩ : Q Nat), true⟩, ⟨⟨[5], 5⟩, true⟩, ⟨⟨[], 0⟩, true⟩, ⟨⟨[], 0⟩, true⟩] = some (some true, os) ∧ os.length = 3 := ⟨_, rfl, rfl⟩

/-- C53 fails for messages that cannot be packed: safe_send_msg of a message, two messages or a list loops for ever
while the link is ready (the array functions return true instead, and the message is dropped). -/
theorem C53_fails_unpackable (sz : α → Nat) (c : SendCfg) (canOverflow prior : Bool) (env : List (Attempt α)) (hr : ∀ a ∈ env, a.ready = true)
    (r : Option Bool) (os : List (SendOut α)) (h : safeSend sz c (.packed none) canOverflow prior env = some (r, os)) : r = none := by
  induction env generalizing r os with
  | nil => simp [safeSend] at h; exact h.1.symm ▸ rfl
  | cons a env ih =>
    simp only [safeSend, Option.bind_eq_bind] at h
    rw [Option.bind_eq_some_iff] at h
    obtain ⟨o, h1, h2⟩ := h
    have hor : o.ret = false := by
      unfold sendCall at h1
      simp only at h1
      generalize hs : (if canOverflow then (a.q, none, true) else shrinkSendBuffer sz c a.q) = s at h1
      split at h1 <;> (simp at h1; rw [← h1])
    simp only [hor, Bool.false_eq_true, if_false, hr a (by simp), if_true] at h2
    rw [Option.bind_eq_some_iff] at h2
    obtain ⟨⟨r1, os1⟩, h3, h4⟩ := h2
    simp at h4
    rw [← h4.1]
    exact ih (fun x hx => hr x (by simp [hx])) r1 os1 h3

/-- C53 is false for the synchronous safe send functions: if a wait times out the message stays in the send buffer and
is put there again; SUCCESS is returned although it was accepted twice (and will be sent twice). -/
theorem C53_fails_sync_duplicate : ∃ os, syncSafeSend id ⟨9, none⟩ (.one 3 true) false false [⟨(⟨[], 0⟩ : Q Nat), .timeout, true⟩, ⟨⟨[3], 3⟩, .success, true⟩] =
    some (some .success, os) ∧ os.map (fun o => o.q.items) = [[3], [3, 3]] ∧ os.all (fun o => o.ret) = true := ⟨_, rfl, rfl, rfl⟩

/-- C53 for the synchronous functions, what remains true: without a timeout (duration 0) and without NOT_APPLICABLE of an accepted message, SUCCESS means accepted
exactly once. -/
theorem C53_sync_no_timeout_partial (sz : α → Nat) (c : SendCfg) (req : SendReq α) (canOverflow prior : Bool) (env : List (SyncAttempt α)) (hw : ∀ a ∈ env, a.wait = .success)
    (r : Option WaitRes) (os : List (SendOut α)) (h : syncSafeSend sz c req canOverflow prior env = some (r, os)) :
    (r = some .success → ∃ pre o, os = pre ++ [o] ∧ o.ret = true ∧ ∀ x ∈ pre, x.ret = false) ∧ (r ≠ some .success → ∀ x ∈ os, x.ret = false) := by
  induction env generalizing r os with
  | nil => simp [syncSafeSend] at h; obtain ⟨rfl, rfl⟩ := h; simp
  | cons a env ih =>
    simp only [syncSafeSend, Option.bind_eq_bind] at h
    rw [Option.bind_eq_some_iff] at h
    obtain ⟨o, h1, h2⟩ := h
    cases hr : o.ret
    · simp only [hr, Bool.false_eq_true, if_false, reduceCtorEq] at h2
      cases hre : a.ready
      · simp [hre] at h2
        obtain ⟨rfl, rfl⟩ := h2
        simp [hr]
      · simp only [hre, if_true] at h2
        rw [Option.bind_eq_some_iff] at h2
        obtain ⟨⟨r1, os1⟩, h3, h4⟩ := h2
        simp at h4
        obtain ⟨rfl, rfl⟩ := h4
        obtain ⟨i1, i2⟩ := ih (fun x hx => hw x (by simp [hx])) r1 os1 h3
        constructor
        · intro hx
          obtain ⟨pre, o', e1, e2, e3⟩ := i1 hx
          refine ⟨o :: pre, o', by simp [e1], e2, ?_⟩
          intro x hm
          simp at hm
          rcases hm with rfl | hm
          · exact hr
          · exact e3 x hm
        · intro hx x hm
          simp at hm
          rcases hm with rfl | hm
          · exact hr
          · exact i2 hx x hm
    · simp only [hr, if_true, hw a (by simp)] at h2
      simp at h2
      obtain ⟨rfl, rfl⟩ := h2
      exact ⟨fun _ => ⟨[], o, by simp, hr, by simp⟩, by simp⟩

end StAsio
