import Verif.Lemmas.EndToEnd2
import Verif.Props.C01_C03_Unpacker
/-!
# C56: from send_msg to on_msg_handle

`Pipe.init c raw stripped = some s0`: a link was just established between a sender that uses the default packer and a receiver that uses the default
unpacker (whose raw buffer contains the arbitrary bytes `raw`). `Pipe.Run c nd cwf batch limit s0 as s es`: the actions `as` (any number of threads sending,
both strands, both kernels, the network splitting the stream at will, timers, the receiving application accepting or refusing messages) lead to `s`, `es` is what the two
applications observe: `sentItems es` are the messages that the send functions accepted, `handledItems es` those that on_msg_handle accepted.
`nd`: NDEBUG, `cwf`: version of asio (see Model/Reader.lean), `batch`: batch_msg_send_size, `limit`: ST_ASIO_MAX_RECV_BUF.
-/
set_option autoImplicit false
namespace StAsio

/-- C56, order and exactly once: at any time, the messages the receiving application has accepted, then the one it is working on, then the ones waiting in the receive
buffer, are exactly the non-empty messages sent that are completely contained in the bytes read so far, in the order in which they were sent, with the same
content. In particular the accepted ones are a prefix of the sent ones. Nothing bad happens: no failing assertion, no access outside of a buffer, no unpack error. -/
theorem C56_in_order (c : Cfg) (hv : c.Valid) (hh : c.bufSize < 256 ^ c.headLen) (raw : Bytes) (hraw : raw.length = c.bufSize) (stripped nd cwf : Bool)
    (batch limit : Nat) (s0 s : Pipe) (as : List PAct) (es : List PEv) (h0 : Pipe.init c raw stripped = some s0) (ha : ∀ a ∈ as, a.Honest)
    (h : Pipe.Run c nd cwf batch limit s0 as s es) :
    handledItems es ++ s.rx.cur.toList ++ s.rx.buf.items = arrived c.headLen stripped (sentItems es) s.off ∧
      handledItems es <+: expected c.headLen stripped (sentItems es) ∧
      s.bad = false ∧ s.tx.bad = false ∧ s.rx.bad = false ∧ RxEvent.unpackError ∉ s.conn.log := by
  obtain ⟨s1, h1, hg⟩ := Pipe.init_good c hv stripped batch limit raw hraw
  rw [h0] at h1
  cases h1
  have hg := Pipe.run_good hv hh hg ha h
  rw [List.nil_append] at hg
  obtain ⟨ras, res, r1, r2, r3, r4, p, r5, r6⟩ := hg.rx
  have hord := C25_order limit ras s.rx res r1 r2
  obtain ⟨q, hq⟩ := hg.arrived s.off hg.off
  rw [hq] at r5
  simp only [Prod.mk.injEq] at r5
  rw [r3, ← r5.1] at hord
  refine ⟨hord, ?_, hg.bad, hg.tx_inv.bad, hg.rx_inv.bad, ?_⟩
  · refine List.IsPrefix.trans ⟨s.rx.cur.toList ++ s.rx.buf.items, ?_⟩ (arrived_prefix c.headLen stripped (sentItems es) s.off)
    rw [← hord, List.append_assoc]
  · rw [r4]; simp [msgs]

/-- C56, completeness: when nothing can go on any more without the sending application (and while on_msg_handle accepts messages), every message sent was handled. -/
theorem C56_all_handled (c : Cfg) (hv : c.Valid) (hh : c.bufSize < 256 ^ c.headLen) (raw : Bytes) (hraw : raw.length = c.bufSize) (stripped nd cwf : Bool)
    (batch limit : Nat) (hlim : 0 < limit) (s0 s : Pipe) (as : List PAct) (es : List PEv) (h0 : Pipe.init c raw stripped = some s0) (ha : ∀ a ∈ as, a.Honest)
    (h : Pipe.Run c nd cwf batch limit s0 as s es) (hq : ∀ a, a.Internal → s.step c nd cwf batch limit a = none) :
    handledItems es = expected c.headLen stripped (sentItems es) := by
  obtain ⟨s1, h1, hg⟩ := Pipe.init_good c hv stripped batch limit raw hraw
  rw [h0] at h1
  cases h1
  have hg := Pipe.run_good hv hh hg ha h
  rw [List.nil_append] at hg
  rcases Classical.em (s.tx.Quiet ∧ s.rx.Quiet limit ∧ s.off = s.tx.wire.length) with hr | hr
  · obtain ⟨e1, e2⟩ := hg.rest hr.1 hr.2.1 hr.2.2
    rw [e1, e2, arrived_all]
  · obtain ⟨a, s', fs, a1, _, a3, _⟩ := Pipe.progress hv nd cwf hlim hg hr
    rw [hq a a1] at a3
    cases a3

/-- C56, no livelock: the number of steps that can be done without the sending application, not counting polls of a full receive buffer that change nothing, is
bounded. -/
theorem C56_terminates (c : Cfg) (hv : c.Valid) (hh : c.bufSize < 256 ^ c.headLen) (raw : Bytes) (hraw : raw.length = c.bufSize) (stripped nd cwf : Bool)
    (batch limit : Nat) (s0 s : Pipe) (as : List PAct) (es : List PEv) (h0 : Pipe.init c raw stripped = some s0) (ha : ∀ a ∈ as, a.Honest)
    (h : Pipe.Run c nd cwf batch limit s0 as s es) :
    ∃ bound, ∀ bs s' fs, Pipe.Run c nd cwf batch limit s bs s' fs → (∀ b ∈ bs, b.Internal) → (bs.filter (fun b => b ≠ .rx .checkTimer)).length ≤ bound := by
  obtain ⟨s1, h1, hg⟩ := Pipe.init_good c hv stripped batch limit raw hraw
  rw [h0] at h1
  cases h1
  have hg := Pipe.run_good hv hh hg ha h
  rw [List.nil_append] at hg
  refine ⟨s.work, ?_⟩
  intro bs s' fs hr hb
  have key : (bs.filter (fun b => b ≠ .rx .checkTimer)).length + s'.work ≤ s.work := by
    induction hr with
    | nil => simp
    | snoc s1 s2 bs b fs fs' hr1 hs1 ih =>
      have ih := ih (fun x hx => hb x (by simp [hx]))
      have hon : ∀ x ∈ bs, x.Honest := by
        intro x hx
        have := hb x (by simp [hx])
        cases x with
        | send _ _ => exact absurd this (by simp [PAct.Internal])
        | _ => trivial
      have hg1 := Pipe.run_good hv hh hg hon hr1
      have hw := Pipe.step_work hv hg1 (hb b (by simp)) hs1
      rw [List.filter_append, List.length_append]
      have hle : ([b].filter (fun b => decide (b ≠ .rx .checkTimer))).length ≤ 1 := List.length_filter_le _ _
      rcases hw with hw | ⟨hw, hw2⟩
      · omega
      · subst hw hw2
        simp
        simpa using ih
  omega

/-- C56, nothing gets stuck: whatever happened before, the library, the kernels and the network, without the sending application, can bring every accepted message
to on_msg_handle and come to rest (and by `C56_terminates` they cannot go on forever without doing so). -/
theorem C56_delivers (c : Cfg) (hv : c.Valid) (hh : c.bufSize < 256 ^ c.headLen) (raw : Bytes) (hraw : raw.length = c.bufSize) (stripped nd cwf : Bool)
    (batch limit : Nat) (hlim : 0 < limit) (s0 s : Pipe) (as : List PAct) (es : List PEv) (h0 : Pipe.init c raw stripped = some s0) (ha : ∀ a ∈ as, a.Honest)
    (h : Pipe.Run c nd cwf batch limit s0 as s es) :
    ∃ bs s' fs, Pipe.Run c nd cwf batch limit s bs s' fs ∧ (∀ b ∈ bs, b.Internal) ∧
      handledItems (es ++ fs) = expected c.headLen stripped (sentItems es) ∧ ∀ a, a.Internal → s'.step c nd cwf batch limit a = none := by
  obtain ⟨s1, h1, hg⟩ := Pipe.init_good c hv stripped batch limit raw hraw
  rw [h0] at h1
  cases h1
  have hg := Pipe.run_good hv hh hg ha h
  rw [List.nil_append] at hg
  have key : ∀ (n : Nat) (s : Pipe) (es : List PEv), s.Good c stripped batch limit es → s.work ≤ n →
      ∃ bs s' fs, Pipe.Run c nd cwf batch limit s bs s' fs ∧ (∀ b ∈ bs, b.Internal ∧ b.Honest) ∧ s'.Good c stripped batch limit (es ++ fs) ∧ sentItems fs = [] ∧
        (s'.tx.Quiet ∧ s'.rx.Quiet limit ∧ s'.off = s'.tx.wire.length) := by
    intro n
    induction n with
    | zero =>
      intro s es hg hw
      rcases Classical.em (s.tx.Quiet ∧ s.rx.Quiet limit ∧ s.off = s.tx.wire.length) with hr | hr
      · exact ⟨[], s, [], Pipe.Run.nil s, by simp, by simpa using hg, rfl, hr⟩
      · obtain ⟨a, s', fs, a1, a2, a3, a4⟩ := Pipe.progress hv nd cwf hlim hg hr
        omega
    | succ n ih =>
      intro s es hg hw
      rcases Classical.em (s.tx.Quiet ∧ s.rx.Quiet limit ∧ s.off = s.tx.wire.length) with hr | hr
      · exact ⟨[], s, [], Pipe.Run.nil s, by simp, by simpa using hg, rfl, hr⟩
      · obtain ⟨a, s', fs, a1, a2, a3, a4⟩ := Pipe.progress hv nd cwf hlim hg hr
        have hg' := Pipe.step_good hv hh hg a2 a3
        obtain ⟨bs, s2, gs, b1, b2, b3, b4, b5⟩ := ih s' _ hg' (by omega)
        have hns : sentItems fs = [] := by
          cases a with
          | send _ _ => exact absurd a1 (by simp [PAct.Internal])
          | tx a =>
            simp only [Pipe.step] at a3
            split at a3
            · rw [Option.map_eq_some_iff] at a3
              obtain ⟨r, _, a3⟩ := a3
              cases a3; rfl
            · cases a3
          | rx a =>
            simp only [Pipe.step] at a3
            split at a3
            · rw [Option.map_eq_some_iff] at a3
              obtain ⟨r, _, a3⟩ := a3
              cases a3; exact (handledItems_rxEv _).2
            · cases a3
          | net k =>
            simp only [Pipe.step] at a3
            split at a3
            · split at a3
              · split at a3
                · cases a3; rfl
                · split at a3
                  · rw [Option.map_eq_some_iff] at a3
                    obtain ⟨r, _, a3⟩ := a3
                    cases a3; exact (handledItems_rxEv _).2
                  · cases a3; rfl
              · cases a3
            · cases a3
        refine ⟨[a] ++ bs, s2, fs ++ gs, Pipe.run_trans (Pipe.run_one a3) b1, ?_, by rw [← List.append_assoc]; exact b3, by rw [sentItems_append, hns, b4]; rfl, b5⟩
        intro b hb
        simp at hb
        rcases hb with rfl | hb
        · exact ⟨a1, a2⟩
        · exact b2 b hb
  obtain ⟨bs, s', fs, b1, b2, b3, b4, b5⟩ := key s.work s es hg (Nat.le_refl _)
  refine ⟨bs, s', fs, b1, fun b hb => (b2 b hb).1, ?_, b3.settled nd cwf hlim b5.1 b5.2.1 b5.2.2⟩
  obtain ⟨e1, e2⟩ := b3.rest b5.1 b5.2.1 b5.2.2
  rw [e1, e2, arrived_all, sentItems_append, b4, List.append_nil]

/-- Three messages and a heartbeat sent by different functions while the stream is cut in the middle of frames; the receive buffer (limit 1) fills up, on_msg_handle
refuses once. -/
def pipeDemo : List PAct :=
  [.send (.one [1, 2]) true, .tx .loadReady, .tx .loadReady, .tx .loadFlag, .tx .loadFlag, .tx .runPosted, .tx .strand, .tx .strand, .tx (.transfer 0 3), .net 3,
   .send (.array [Piece.of [3]]) true, .send .heartbeat true, .tx .loadReady, .tx (.transfer 0 1), .net 1, .rx .loadDisp, .rx .handled, .rx .run, .rx .begin,
   .rx (.ret false), .rx .dis, .tx (.complete 0 true), .tx (.handler 0), .tx .strand, .tx (.transfer 0 5), .rx .checkTimer, .rx .resume, .net 4, .rx .loadDisp, .rx .handled,
   .rx .checkTimer, .send (.two [4] [5, 6]) true, .rx .dtimer, .rx .run, .rx .begin, .rx (.ret true), .rx .dis, .rx .dis, .rx .run, .rx .begin, .rx .checkTimer, .rx .resume, .net 1,
   .rx (.ret true), .rx .dis, .rx .dis, .tx (.complete 0 true), .tx (.handler 0), .tx .strand, .tx (.transfer 0 5), .rx .handled, .net 5, .rx .loadDisp, .rx .run, .rx .begin, .rx (.ret true),
   .rx .dis, .rx .dis]

/-- Non-vacuity of C56: this run exists; the receiving application accepted exactly the three messages. -/
example : ∃ s0 s es, Pipe.init exCfg (List.replicate 8 0) true = some s0 ∧ Pipe.Run exCfg true false 65536 1 s0 pipeDemo s es ∧ (∀ a ∈ pipeDemo, a.Honest) ∧
    sentItems es = [[1, 2], [3], [], [4, 5, 6]] ∧ handledItems es = [[1, 2], [3], [4, 5, 6]] ∧ expected 2 true (sentItems es) = handledItems es := by
  have e : ((Pipe.init exCfg (List.replicate 8 0) true).bind (fun s0 => Pipe.exec exCfg true false 65536 1 s0 pipeDemo)).map (fun r => r.2) =
      some [.sent [1, 2], .sent [3], .sent [], .handled [1, 2] false, .sent [4, 5, 6], .handled [1, 2] true, .handled [3] true, .handled [4, 5, 6] true] := by
    decide +kernel
  rw [Option.map_eq_some_iff] at e
  obtain ⟨⟨s, es⟩, e1, e2⟩ := e
  rw [Option.bind_eq_some_iff] at e1
  obtain ⟨s0, h0, h1⟩ := e1
  simp only at e2
  subst e2
  refine ⟨s0, s, _, h0, Pipe.exec_run h1, ?_, by decide, by decide, by decide⟩
  intro a ha
  simp only [pipeDemo, List.mem_cons, List.not_mem_nil, or_false] at ha
  rcases Classical.em (a = .send (.array [Piece.of [3]]) true) with h | h
  · subst h
    intro p hp mem hm
    simp [Piece.of] at hp
    subst hp
    simp at hm
    subst hm
    decide
  · cases a with
    | send call fits =>
      cases call with
      | array ps => simp at ha; exact absurd (by rw [ha.1, ha.2]) h
      | _ => trivial
    | _ => trivial

end StAsio
