import Verif.Lemmas.Websocket2
import Verif.Props.C01_C03_Unpacker
/-!
# C69: messages over websocket

`WsPipe.Run c nd limit WsPipe.init as s es`: a websocket link was just established, the actions `as` (any number of threads sending, both strands, both kernels, timers, the
receiving application accepting or refusing messages) lead to `s`; `es` is what the two applications observe: `wsContents es` are the contents of the messages that the send functions
accepted, `wsPieces es` the pieces in which they were put into the send buffer, `wsHandled es` the messages on_msg_handle accepted. `c`: sizes of the default packer, `nd`: NDEBUG of the
receiver, `limit`: ST_ASIO_MAX_RECV_BUF.

The property a user expects: the receiver gets exactly `wsContents es`. It holds if messages are given to send_native_msg one at a time (`C69_native_*`); every other
send function breaks it in some way (`C69_fails_*`). For all send functions it is proved what the receiver gets instead: each piece becomes a message of its own, in order, exactly once,
up to the first empty piece, which ends reception for good.
-/
set_option autoImplicit false
namespace StAsio

/-- C69, all send functions: the messages the receiving application has accepted, then the one it is working on, then the ones waiting in the receive buffer, are the pieces read so far, one
message for each, in order, up to the first empty one. Neither side does anything undefined, and the receiving process ends only by the assertion about empty messages. -/
theorem C69_in_order_partial (c : Cfg) (hv : c.Valid) (hh : c.bufSize < 256 ^ c.headLen) (nd : Bool) (limit : Nat) (s : WsPipe) (as : List WsAct) (es : List WsEv)
    (ha : ∀ a ∈ as, a.Honest) (h : WsPipe.Run c nd limit WsPipe.init as s es) :
    wsHandled es ++ s.rx.cur.toList ++ s.rx.buf.items = upToEmpty ((wsPieces es).take s.off) ∧ wsHandled es <+: upToEmpty (wsPieces es) ∧
      s.tx.bad = false ∧ s.rx.bad = false ∧ (s.bad = true → nd = false ∧ [] ∈ wsPieces es) := by
  have hg := WsPipe.run_good hv hh (WsPipe.init_good nd limit) ha h
  rw [List.nil_append] at hg
  obtain ⟨ras, res, r1, r2, r3, r4⟩ := hg.rx
  have hord := C25_order limit ras s.rx res r1 r2
  rw [r3, r4, hg.read] at hord
  refine ⟨hord, ?_, hg.tx_inv.bad, hg.rx_inv.bad, fun hb => ⟨hg.how.1 hb, hg.mem (hg.dead (Or.inr hb))⟩⟩
  have h1 : wsHandled es <+: upToEmpty ((wsPieces es).take s.off) := by
    rw [← hord, List.append_assoc]; exact ⟨_, rfl⟩
  have h2 := upToEmpty_prefix ((wsPieces es).take s.off) ((wsPieces es).drop s.off)
  rw [List.take_append_drop] at h2
  exact h1.trans h2

/-- C69, completeness: when nothing can go on any more without the sending application (and while on_msg_handle accepts messages), every piece in front of the first empty one was handled. -/
theorem C69_all_handled_partial (c : Cfg) (hv : c.Valid) (hh : c.bufSize < 256 ^ c.headLen) (nd : Bool) (limit : Nat) (hlim : 0 < limit) (s : WsPipe) (as : List WsAct) (es : List WsEv)
    (ha : ∀ a ∈ as, a.Honest) (h : WsPipe.Run c nd limit WsPipe.init as s es) (hn : nd = true ∨ [] ∉ wsPieces es)
    (hq : ∀ a, a.Internal → s.step c nd limit a = none) : wsHandled es = upToEmpty (wsPieces es) := by
  have hg := WsPipe.run_good hv hh (WsPipe.init_good nd limit) ha h
  rw [List.nil_append] at hg
  rcases Classical.em (s.AtRest limit) with hr | hr
  · exact hg.rest hr
  · obtain ⟨a, s', fs, a1, _, a3, _⟩ := WsPipe.progress c nd hlim hg (hg.not_bad hn) hr
    rw [hq a a1] at a3
    cases a3

/-- C69, no livelock: the number of steps that can be done without the sending application, not counting polls of a full receive buffer that change nothing, is bounded. -/
theorem C69_terminates (c : Cfg) (hv : c.Valid) (hh : c.bufSize < 256 ^ c.headLen) (nd : Bool) (limit : Nat) (s : WsPipe) (as : List WsAct) (es : List WsEv)
    (ha : ∀ a ∈ as, a.Honest) (h : WsPipe.Run c nd limit WsPipe.init as s es) :
    ∃ bound, ∀ bs s' fs, WsPipe.Run c nd limit s bs s' fs → (∀ b ∈ bs, b.Internal) → (bs.filter (fun b => b ≠ .rx .checkTimer)).length ≤ bound := by
  have hg := WsPipe.run_good hv hh (WsPipe.init_good nd limit) ha h
  rw [List.nil_append] at hg
  refine ⟨s.work, ?_⟩
  intro bs s' fs hr hb
  have key : (bs.filter (fun b => b ≠ .rx .checkTimer)).length + s'.work ≤ s.work := by
    induction hr with
    | nil => simp
    | snoc s1 s2 bs b fs fs' hr1 hs1 ih =>
      have ih := ih (fun x hx => hb x (by simp [hx]))
      have hon : ∀ x ∈ bs, x.Honest := by
        intro x hx
        have := hb x (by simp [hx])
        cases x with
        | send _ _ _ => exact absurd this (by simp [WsAct.Internal])
        | _ => trivial
      have hg1 := WsPipe.run_good hv hh hg hon hr1
      have hw := WsPipe.step_work hg1 (hb b (by simp)) hs1
      rw [List.filter_append, List.length_append]
      have hle : ([b].filter (fun b => decide (b ≠ .rx .checkTimer))).length ≤ 1 := List.length_filter_le _ _
      rcases hw with hw | ⟨hw, hw2⟩
      · omega
      · subst hw hw2
        simp
        simpa using ih
  omega

theorem WsPipe.internal_contents {c : Cfg} {nd : Bool} {limit : Nat} {s s' : WsPipe} {a : WsAct} {fs : List WsEv} (ha : a.Internal) (hs : s.step c nd limit a = some (s', fs)) :
    wsPieces fs = [] ∧ wsContents fs = [] := by
  cases a with
  | send _ _ _ => exact absurd ha (by simp [WsAct.Internal])
  | tx a =>
    simp only [WsPipe.step] at hs
    split at hs
    · rw [Option.map_eq_some_iff] at hs
      obtain ⟨r, _, hs⟩ := hs
      cases hs; exact ⟨rfl, rfl⟩
    · cases hs
  | rx a =>
    simp only [WsPipe.step] at hs
    split at hs
    · rw [Option.map_eq_some_iff] at hs
      obtain ⟨r, _, hs⟩ := hs
      cases hs; exact (wsHandled_rxEv _).2
    · cases hs
  | net =>
    simp only [WsPipe.step] at hs
    split at hs
    · cases hs
    · split at hs
      · cases hs
      · split at hs
        · rw [Option.map_eq_some_iff] at hs
          obtain ⟨r, _, hs⟩ := hs
          cases hs; exact (wsHandled_rxEv _).2
        · split at hs
          · rw [Option.map_eq_some_iff] at hs
            obtain ⟨r, _, hs⟩ := hs
            cases hs; exact (wsHandled_rxEv _).2
          · cases hs; exact ⟨rfl, rfl⟩

theorem WsPipe.drain (c : Cfg) (hv : c.Valid) (hh : c.bufSize < 256 ^ c.headLen) {nd : Bool} {limit : Nat} (hlim : 0 < limit) :
    ∀ (n : Nat) (s : WsPipe) (es : List WsEv), s.Good nd limit es → (nd = true ∨ [] ∉ wsPieces es) → s.work ≤ n →
      ∃ bs s' fs, WsPipe.Run c nd limit s bs s' fs ∧ (∀ b ∈ bs, b.Internal) ∧ wsPieces fs = [] ∧ wsContents fs = [] ∧ wsHandled (es ++ fs) = upToEmpty (wsPieces es) := by
  intro n
  induction n with
  | zero =>
    intro s es hg hn hw
    rcases Classical.em (s.AtRest limit) with hr | hr
    · exact ⟨[], s, [], WsPipe.Run.nil s, by simp, rfl, rfl, by rw [List.append_nil]; exact hg.rest hr⟩
    · obtain ⟨a, s', fs, a1, a2, a3, a4⟩ := WsPipe.progress c nd hlim hg (hg.not_bad hn) hr
      omega
  | succ n ih =>
    intro s es hg hn hw
    rcases Classical.em (s.AtRest limit) with hr | hr
    · exact ⟨[], s, [], WsPipe.Run.nil s, by simp, rfl, rfl, by rw [List.append_nil]; exact hg.rest hr⟩
    · obtain ⟨a, s', fs, a1, a2, a3, a4⟩ := WsPipe.progress c nd hlim hg (hg.not_bad hn) hr
      have hg' := WsPipe.step_good hv hh hg a2 a3
      obtain ⟨p1, p2⟩ := WsPipe.internal_contents a1 a3
      have hp : wsPieces (es ++ fs) = wsPieces es := by rw [wsPieces_append, p1, List.append_nil]
      obtain ⟨bs, s2, gs, b1, b2, b3, b4, b5⟩ := ih s' _ hg' (by rw [hp]; exact hn) (by omega)
      refine ⟨[a] ++ bs, s2, fs ++ gs, WsPipe.run_trans (WsPipe.run_one a3) b1, ?_, by rw [wsPieces_append, p1, b3]; rfl, by rw [wsContents_append, p2, b4]; rfl, ?_⟩
      · intro b hb
        simp at hb
        rcases hb with rfl | hb
        · exact a1
        · exact b2 b hb
      · rw [← List.append_assoc, b5, hp]

/-- C69, nothing gets stuck: whatever happened before, the library, the kernels and the network can bring every piece in front of the first empty one to on_msg_handle. -/
theorem C69_delivers_partial (c : Cfg) (hv : c.Valid) (hh : c.bufSize < 256 ^ c.headLen) (nd : Bool) (limit : Nat) (hlim : 0 < limit) (s : WsPipe) (as : List WsAct) (es : List WsEv)
    (ha : ∀ a ∈ as, a.Honest) (h : WsPipe.Run c nd limit WsPipe.init as s es) (hn : nd = true ∨ [] ∉ wsPieces es) :
    ∃ bs s' fs, WsPipe.Run c nd limit s bs s' fs ∧ (∀ b ∈ bs, b.Internal) ∧ wsPieces fs = [] ∧ wsHandled (es ++ fs) = upToEmpty (wsPieces es) := by
  have hg := WsPipe.run_good hv hh (WsPipe.init_good nd limit) ha h
  rw [List.nil_append] at hg
  obtain ⟨bs, s', fs, b1, b2, b3, b4, b5⟩ := WsPipe.drain c hv hh hlim s.work s es hg hn (Nat.le_refl _)
  exact ⟨bs, s', fs, b1, b2, b3, b5⟩

/-- With send_native_msg of one message at a time, the pieces are the messages, and none is empty. -/
theorem WsPipe.native_pieces {c : Cfg} (hv : c.Valid) {nd : Bool} {limit : Nat} {s0 s : WsPipe} {as : List WsAct} {es : List WsEv}
    (ha : ∀ a ∈ as, a.Honest) (hna : ∀ a ∈ as, a.NativeOnly) (h : WsPipe.Run c nd limit s0 as s es) : wsPieces es = wsContents es ∧ [] ∉ wsPieces es := by
  induction h with
  | nil => exact ⟨rfl, by simp [wsPieces]⟩
  | snoc s1 s2 as a es fs hr hs ih =>
    obtain ⟨i1, i2⟩ := ih (fun x hx => ha x (by simp [hx])) (fun x hx => hna x (by simp [hx]))
    have key : wsPieces fs = wsContents fs ∧ [] ∉ wsPieces fs := by
      have ha := ha a (by simp)
      have hna := hna a (by simp)
      by_cases hint : a.Internal
      · obtain ⟨p1, p2⟩ := WsPipe.internal_contents hint hs
        rw [p1, p2]; simp
      · cases a with
        | send native call fits =>
          have main : ∀ m : Bytes, call.wsPack c nd true = some (some [m]) → call.wsSingle true = true → (m ≠ [] → m = call.body) → native = true →
              wsPieces fs = wsContents fs ∧ [] ∉ wsPieces fs := by
            intro m hp hsg hm hnt
            subst hnt
            simp only [WsPipe.step, hp, hsg, if_true] at hs
            split at hs
            · cases hs
            · simp only [List.flatten_cons, List.flatten_nil, List.append_nil, Option.some.injEq, Prod.mk.injEq] at hs
              obtain ⟨_, rfl⟩ := hs
              rcases (Tx.send_frames s1.tx (⟨m, none⟩ : TxMsg) fits).2 with ⟨f2, f3⟩ | ⟨f2, f3, f4⟩
              · rw [f2]; simp [wsPieces, wsContents]
              · rw [f2]
                simp only at f3
                simp [wsPieces, wsContents, ← hm f3, Ne.symm f3]
          cases native with
          | false => cases call <;> simp [WsAct.NativeOnly] at hna
          | true =>
            cases call with
            | one m => exact main m rfl rfl (fun _ => rfl) rfl
            | array ps =>
              have hps := packArray_spec c hv true ps ha
              simp only [if_true] at hps
              have h0 : content ps = [] ∨ content ps ≠ [] := Classical.em _
              by_cases g1 : c.bufSize < 0 + totalLen ps
              · rw [if_pos g1] at hps
                exact main [] (by simp [SendCall.wsPack, hps]) rfl (by simp) rfl
              · rw [if_neg g1] at hps
                by_cases g2 : totalLen ps = 0
                · rw [if_pos g2] at hps
                  exact main [] (by simp [SendCall.wsPack, hps]) rfl (by simp) rfl
                · rw [if_neg g2] at hps
                  exact main (content ps) (by simp [SendCall.wsPack, hps]) rfl (fun _ => rfl) rfl
            | two _ _ => simp [WsAct.NativeOnly] at hna
            | list _ => simp [WsAct.NativeOnly] at hna
            | heartbeat => simp [WsAct.NativeOnly] at hna
        | tx a => exact absurd trivial hint
        | net => exact absurd trivial hint
        | rx a =>
          simp only [WsPipe.step] at hs
          split at hs
          · rw [Option.map_eq_some_iff] at hs
            obtain ⟨r, _, hs⟩ := hs
            cases hs
            obtain ⟨_, p1, p2⟩ := wsHandled_rxEv r.2
            rw [p1, p2]; simp
          · cases hs
    rw [wsPieces_append, wsContents_append, i1, key.1]
    refine ⟨rfl, ?_⟩
    rw [← i1, ← key.1, List.mem_append]
    rintro (hc | hc)
    · exact i2 hc
    · exact key.2 hc

/-- C69 for send_native_msg with one message at a time: the receiving application gets exactly the messages sent, each as one message, unchanged, in order, none twice, and nothing bad happens. -/
theorem C69_native_in_order (c : Cfg) (hv : c.Valid) (hh : c.bufSize < 256 ^ c.headLen) (nd : Bool) (limit : Nat) (s : WsPipe) (as : List WsAct) (es : List WsEv)
    (ha : ∀ a ∈ as, a.Honest) (hna : ∀ a ∈ as, a.NativeOnly) (h : WsPipe.Run c nd limit WsPipe.init as s es) :
    wsHandled es ++ s.rx.cur.toList ++ s.rx.buf.items = (wsContents es).take s.off ∧ s.bad = false ∧ s.tx.bad = false ∧ s.rx.bad = false := by
  obtain ⟨h1, h2, h3, h4, h5⟩ := C69_in_order_partial c hv hh nd limit s as es ha h
  obtain ⟨p1, p2⟩ := WsPipe.native_pieces hv ha hna h
  refine ⟨?_, ?_, h3, h4⟩
  · rw [h1, upToEmpty_self _ (fun hc => p2 (List.mem_of_mem_take hc)), p1]
  · cases hb : s.bad with
    | false => rfl
    | true => exact absurd (h5 hb).2 p2

/-- ... and all of them arrive: when nothing can go on any more without the sending application, all were handled ... -/
theorem C69_native_all_handled (c : Cfg) (hv : c.Valid) (hh : c.bufSize < 256 ^ c.headLen) (nd : Bool) (limit : Nat) (hlim : 0 < limit) (s : WsPipe) (as : List WsAct) (es : List WsEv)
    (ha : ∀ a ∈ as, a.Honest) (hna : ∀ a ∈ as, a.NativeOnly) (h : WsPipe.Run c nd limit WsPipe.init as s es)
    (hq : ∀ a, a.Internal → s.step c nd limit a = none) : wsHandled es = wsContents es := by
  obtain ⟨p1, p2⟩ := WsPipe.native_pieces hv ha hna h
  rw [C69_all_handled_partial c hv hh nd limit hlim s as es ha h (Or.inr p2) hq, upToEmpty_self _ p2, p1]

/-- ... and this can always be reached (and by `C69_terminates` must be reached if things go on). -/
theorem C69_native_delivers (c : Cfg) (hv : c.Valid) (hh : c.bufSize < 256 ^ c.headLen) (nd : Bool) (limit : Nat) (hlim : 0 < limit) (s : WsPipe) (as : List WsAct) (es : List WsEv)
    (ha : ∀ a ∈ as, a.Honest) (hna : ∀ a ∈ as, a.NativeOnly) (h : WsPipe.Run c nd limit WsPipe.init as s es) :
    ∃ bs s' fs, WsPipe.Run c nd limit s bs s' fs ∧ (∀ b ∈ bs, b.Internal) ∧ wsHandled (es ++ fs) = wsContents es := by
  obtain ⟨p1, p2⟩ := WsPipe.native_pieces hv ha hna h
  obtain ⟨bs, s', fs, b1, b2, _, b3⟩ := C69_delivers_partial c hv hh nd limit hlim s as es ha h (Or.inr p2)
  exact ⟨bs, s', fs, b1, b2, by rw [b3, upToEmpty_self _ p2, p1]⟩

/-- The strand writes one message: two posted sends at most, the write, its completion. -/
def wsWrite (k : Nat) : List WsAct := [.tx .strand, .tx (.transfer 0 k), .tx (.complete 0 true), .tx (.handler 0)]
/-- The receiver reads one message and handles it. -/
def wsRead : List WsAct := [.net, .rx .loadDisp, .rx .handled, .rx .run, .rx .begin, .rx (.ret true), .rx .dis, .rx .dis, .rx .run]
/-- The thread of a send call wakes up the strand. -/
def wsWake : List WsAct := [.tx .loadReady, .tx .loadFlag, .tx .runPosted, .tx .strand]

/-- Non-vacuity of C69_native: an array of two strings and a string, sent while the first one is being written; the empty message is ignored. -/
def wsDemo : List WsAct :=
  [.send true (.array [Piece.of [1], Piece.of [2]]) true] ++ wsWake ++ [.tx .strand, .tx (.transfer 0 1), .send true (.one [3]) true, .send true (.one []) true,
    .tx (.transfer 0 1), .tx (.complete 0 true), .net, .tx (.handler 0)] ++ wsWrite 1 ++
  [.rx .loadDisp, .rx .handled, .net, .rx .run, .rx .begin, .rx (.ret false), .rx .dis, .rx .dtimer, .rx .run, .rx .begin, .rx (.ret true), .rx .dis, .rx .dis, .rx .run, .rx .begin,
   .rx (.ret true), .rx .dis, .rx .dis, .rx .run, .rx .loadDisp, .rx .handled]

theorem C69_demo : ∃ s es, WsPipe.Run exCfg true 100 WsPipe.init wsDemo s es ∧ (∀ a ∈ wsDemo, a.NativeOnly) ∧ wsContents es = [[1, 2], [3]] ∧ wsHandled es = [[1, 2], [3]] := by
  refine ⟨_, _, WsPipe.exec_run (c := exCfg) (nd := true) (limit := 100) (as := wsDemo) rfl, ?_, by decide +kernel, by decide +kernel⟩
  intro a ha
  simp only [wsDemo, wsWake, wsWrite, List.mem_append, List.mem_cons, List.not_mem_nil, or_false] at ha
  cases a with
  | send native call fits =>
    cases call <;> cases native <;> simp_all [WsAct.NativeOnly]
  | _ => trivial

/-- C69 fails with send_msg(std::string&) and the default packer: one message is received as two, the head and the body. -/
theorem C69_fails_send_msg : ∃ s es, WsPipe.Run exCfg true 100 WsPipe.init
    ([.send false (.one [1]) true] ++ wsWake ++ wsWrite 2 ++ wsWrite 1 ++ wsRead ++ wsRead) s es ∧ wsContents es = [[1]] ∧ wsHandled es = [[0, 3], [1]] :=
  ⟨_, _, WsPipe.exec_run rfl, by decide +kernel, by decide +kernel⟩

/-- C69 fails with send_msg(pointer, length) and the default packer: the received message has the head in front. -/
theorem C69_fails_head : ∃ s es, WsPipe.Run exCfg true 100 WsPipe.init
    ([.send false (.array [Piece.of [1]]) true] ++ wsWake ++ wsWrite 3 ++ wsRead) s es ∧ wsContents es = [[1]] ∧ wsHandled es = [[0, 3, 1]] :=
  ⟨_, _, WsPipe.exec_run rfl, by decide +kernel, by decide +kernel⟩

/-- C69 fails with send_native_msg(msg1, msg2): two messages are received. (Over TCP they are one, C11.) -/
theorem C69_fails_two : ∃ s es, WsPipe.Run exCfg true 100 WsPipe.init
    ([.send true (.two [1] [2]) true] ++ wsWake ++ wsWrite 1 ++ wsWrite 1 ++ wsRead ++ wsRead) s es ∧ wsContents es = [[1, 2]] ∧ wsHandled es = [[1], [2]] :=
  ⟨_, _, WsPipe.exec_run rfl, by decide +kernel, by decide +kernel⟩

/-- C69 fails with heartbeats: each one is received as a message. -/
theorem C69_fails_heartbeat : ∃ s es, WsPipe.Run exCfg true 100 WsPipe.init
    ([.send false .heartbeat true] ++ wsWake ++ wsWrite 2 ++ wsRead) s es ∧ wsContents es = [[]] ∧ wsHandled es = [[0, 2]] :=
  ⟨_, _, WsPipe.exec_run rfl, by decide +kernel, by decide +kernel⟩

/-- An empty string given to send_msg(std::string&), then a message. -/
def wsEmptyRun : List WsAct :=
  [.send false (.one []) true] ++ wsWake ++ wsWrite 2 ++ [.tx .strand, .tx (.complete 0 true), .tx (.handler 0)] ++ wsRead

theorem WsPipe.after_empty {s : WsPipe} {es : List WsEv} (h : WsPipe.Run exCfg true 100 WsPipe.init wsEmptyRun s es) (hp : wsPieces es = [[0, 2], []])
    (bs : List WsAct) (s' : WsPipe) (fs : List WsEv) (hb : ∀ b ∈ bs, b.Honest) (hr : WsPipe.Run exCfg true 100 s bs s' fs) : wsHandled (es ++ fs) <+: [[0, 2]] := by
  have h1 := (C69_in_order_partial exCfg (by decide) (by decide) true 100 s' _ _ (by
    intro a ha
    rw [List.mem_append] at ha
    rcases ha with ha | ha
    · cases a with
      | send native call fits =>
        cases call with
        | array ps => simp [wsEmptyRun, wsWake, wsWrite, wsRead] at ha
        | _ => trivial
      | _ => trivial
    · exact hb a ha) (WsPipe.run_trans h hr)).2.1
  rw [wsPieces_append, hp] at h1
  exact h1

/-- C69 fails for good after an empty message (which send_msg(std::string&), the sending functions for lists, and any websocket peer can send): the receiver gets the head [0, 2], and whatever happens
afterwards, no other message, although the link stays up and messages are still sent and written. Without NDEBUG the process ends. -/
theorem C69_fails_empty : ∃ s es, WsPipe.Run exCfg true 100 WsPipe.init wsEmptyRun s es ∧ wsPieces es = [[0, 2], []] ∧
    (∀ bs s' fs, (∀ b ∈ bs, b.Honest) → WsPipe.Run exCfg true 100 s bs s' fs → wsHandled (es ++ fs) <+: [[0, 2]]) ∧
    (∃ s' fs, WsPipe.Run exCfg true 100 s ([.net, .send true (.one [7]) true] ++ wsWrite 1) s' fs ∧ wsContents fs = [[7]] ∧ s'.link = [[0, 2], [], [7]] ∧ s'.rx.rd = .off) := by
  have h : WsPipe.Run exCfg true 100 WsPipe.init wsEmptyRun _ _ := WsPipe.exec_run rfl
  exact ⟨_, _, h, by decide +kernel, WsPipe.after_empty h (by decide +kernel), ⟨_, _, WsPipe.exec_run rfl, by decide +kernel, by decide +kernel, by decide +kernel⟩⟩

/-- The same without NDEBUG: the receiving process is ended by its peer. -/
theorem C69_fails_empty_debug : ∃ s es, WsPipe.Run exCfg false 100 WsPipe.init (wsEmptyRun ++ [.net]) s es ∧ s.bad = true :=
  ⟨_, _, WsPipe.exec_run rfl, by decide +kernel⟩

end StAsio
