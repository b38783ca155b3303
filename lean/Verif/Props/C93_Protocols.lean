import Verif.Lemmas.Protocols2
import Verif.Props.C56_EndToEnd
/-!
# C93: from send_msg to on_msg_handle, with every packer and unpacker of the library

`GPipe.init (P.codec nd junk raw) = some s0`: a link was just established whose two ends use the pair `P` (the buffer of the unpacker contains the arbitrary bytes `raw`,
buffers it allocates later arbitrary bytes `junk n`). `GPipe.Run cwf batch limit s0 as s es`: as in C56, the actions `as` lead to `s` and `es` is what the two applications observe.
Spec/Protocols.lean says what each pair promises.
-/
set_option autoImplicit false
namespace StAsio

theorem PAct.allowed_send {P : Proto} {as : List PAct} (ha : ∀ a ∈ as, a.Allowed P) : ∀ a ∈ as, ∀ call fits, a = .send call fits → P.Sendable call := by
  intro a h call fits hc
  have := ha a h
  subst hc
  exact this

/-- C93, order and exactly once: at any time, the messages the receiving application has accepted, then the one it is working on, then the ones waiting in the receive buffer, are
exactly those contained completely in the bytes read so far (without a protocol: make up exactly these bytes), in order and unchanged. Nothing bad happens: no failing
assertion, no access outside of a buffer, no unpack error. -/
theorem C93_in_order (P : Proto) (hv : P.Valid) (nd : Bool) (junk : Nat → Bytes) (hj : ∀ n, (junk n).length = n) (raw : Bytes) (hraw : raw.length = P.rawLen) (cwf : Bool)
    (batch limit : Nat) (s0 s : GPipe (P.codec nd junk raw)) (as : List PAct) (es : List PEv) (h0 : GPipe.init (P.codec nd junk raw) = some s0) (ha : ∀ a ∈ as, a.Allowed P)
    (h : GPipe.Run cwf batch limit s0 as s es) :
    P.Shown (sentItems es) s.off (handledItems es ++ s.rx.cur.toList ++ s.rx.buf.items) ∧ P.Beginning (sentItems es) (handledItems es) ∧
      s.bad = false ∧ s.tx.bad = false ∧ s.rx.bad = false ∧ RxEvent.unpackError ∉ s.conn.log := by
  obtain ⟨Inv, hK⟩ := P.reads hv nd cwf junk hj raw hraw
  obtain ⟨s1, h1, hg⟩ := GPipe.init_good hK batch limit
  rw [h0] at h1
  cases h1
  have hg := GPipe.run_good hK (P.packs hv nd junk raw) hg (PAct.allowed_send ha) h
  rw [List.nil_append] at hg
  obtain ⟨o1, o2⟩ := hg.order hK
  refine ⟨o1, ?_, hg.bad, hg.tx_inv.bad, hg.rx_inv.bad, o2⟩
  rw [List.append_assoc] at o1
  exact P.shown_prefix o1

/-- C93, completeness: when nothing can go on any more without the sending application (and while on_msg_handle accepts messages), everything sent was handled. -/
theorem C93_all_handled (P : Proto) (hv : P.Valid) (nd : Bool) (junk : Nat → Bytes) (hj : ∀ n, (junk n).length = n) (raw : Bytes) (hraw : raw.length = P.rawLen) (cwf : Bool)
    (batch limit : Nat) (hlim : 0 < limit) (s0 s : GPipe (P.codec nd junk raw)) (as : List PAct) (es : List PEv) (h0 : GPipe.init (P.codec nd junk raw) = some s0)
    (ha : ∀ a ∈ as, a.Allowed P) (h : GPipe.Run cwf batch limit s0 as s es) (hq : ∀ a, a.Internal → s.step cwf batch limit a = none) :
    P.Everything (sentItems es) (handledItems es) := by
  obtain ⟨Inv, hK⟩ := P.reads hv nd cwf junk hj raw hraw
  obtain ⟨s1, h1, hg⟩ := GPipe.init_good hK batch limit
  rw [h0] at h1
  cases h1
  have hP := P.packs hv nd junk raw
  have hg := GPipe.run_good hK hP hg (PAct.allowed_send ha) h
  rw [List.nil_append] at hg
  rcases Classical.em (s.tx.Quiet ∧ s.rx.Quiet limit ∧ s.off = s.tx.wire.length) with hr | hr
  · exact P.shown_all (hg.rest hK hr.1 hr.2.1 hr.2.2)
  · obtain ⟨a, s', fs, a1, a3, _⟩ := GPipe.progress hK hP hlim hg hr
    rw [hq a a1] at a3
    cases a3

/-- C93, no livelock: the number of steps that can be done without the sending application, not counting polls of a full receive buffer that change nothing, is bounded. -/
theorem C93_terminates (P : Proto) (hv : P.Valid) (nd : Bool) (junk : Nat → Bytes) (hj : ∀ n, (junk n).length = n) (raw : Bytes) (hraw : raw.length = P.rawLen) (cwf : Bool)
    (batch limit : Nat) (s0 s : GPipe (P.codec nd junk raw)) (as : List PAct) (es : List PEv) (h0 : GPipe.init (P.codec nd junk raw) = some s0) (ha : ∀ a ∈ as, a.Allowed P)
    (h : GPipe.Run cwf batch limit s0 as s es) :
    ∃ bound, ∀ bs s' fs, GPipe.Run cwf batch limit s bs s' fs → (∀ b ∈ bs, b.Internal) → (bs.filter (fun b => b ≠ .rx .checkTimer)).length ≤ bound := by
  obtain ⟨Inv, hK⟩ := P.reads hv nd cwf junk hj raw hraw
  obtain ⟨s1, h1, hg⟩ := GPipe.init_good hK batch limit
  rw [h0] at h1
  cases h1
  have hP := P.packs hv nd junk raw
  have hg := GPipe.run_good hK hP hg (PAct.allowed_send ha) h
  refine ⟨s.work, ?_⟩
  intro bs s' fs hr hb
  have := GPipe.bounded hK hP hg hr hb
  omega

/-- C93, nothing gets stuck: whatever happened before, the library, the kernels and the network, without the sending application, can bring everything that was accepted to
on_msg_handle and come to rest (and by `C93_terminates` they cannot go on forever without doing so). -/
theorem C93_delivers (P : Proto) (hv : P.Valid) (nd : Bool) (junk : Nat → Bytes) (hj : ∀ n, (junk n).length = n) (raw : Bytes) (hraw : raw.length = P.rawLen) (cwf : Bool)
    (batch limit : Nat) (hlim : 0 < limit) (s0 s : GPipe (P.codec nd junk raw)) (as : List PAct) (es : List PEv) (h0 : GPipe.init (P.codec nd junk raw) = some s0)
    (ha : ∀ a ∈ as, a.Allowed P) (h : GPipe.Run cwf batch limit s0 as s es) :
    ∃ bs s' fs, GPipe.Run cwf batch limit s bs s' fs ∧ (∀ b ∈ bs, b.Internal) ∧ sentItems (es ++ fs) = sentItems es ∧
      P.Everything (sentItems es) (handledItems (es ++ fs)) ∧ ∀ a, a.Internal → s'.step cwf batch limit a = none := by
  obtain ⟨Inv, hK⟩ := P.reads hv nd cwf junk hj raw hraw
  obtain ⟨s1, h1, hg⟩ := GPipe.init_good hK batch limit
  rw [h0] at h1
  cases h1
  have hP := P.packs hv nd junk raw
  have hg := GPipe.run_good hK hP hg (PAct.allowed_send ha) h
  rw [List.nil_append] at hg
  obtain ⟨bs, s', fs, b1, b2, b3, b4, b5⟩ := GPipe.settles hK hP hlim s.work s es hg (Nat.le_refl _)
  have hsame : sentItems (es ++ fs) = sentItems es := by rw [sentItems_append, b4, List.append_nil]
  refine ⟨bs, s', fs, b1, b2, hsame, ?_, b3.settled cwf hlim b5.1 b5.2.1 b5.2.2⟩
  have := P.shown_all (b3.rest hK b5.1 b5.2.1 b5.2.2)
  rwa [hsame] at this

/-- A link exists with every pair. -/
theorem C93_starts (P : Proto) (hv : P.Valid) (nd : Bool) (junk : Nat → Bytes) (hj : ∀ n, (junk n).length = n) (raw : Bytes) (hraw : raw.length = P.rawLen) :
    ∃ s0, GPipe.init (P.codec nd junk raw) = some s0 := by
  obtain ⟨Inv, hK⟩ := P.reads hv nd false junk hj raw hraw
  obtain ⟨s1, h1, _⟩ := GPipe.init_good hK 0 0
  exact ⟨s1, h1⟩

/-! ### runs with every pair -/

/-- Two threads send; the wire form of both messages has 4 bytes, which arrive in the pieces `ks`; each piece is followed by the receiver's steps `rs`. -/
def protoDemo (m1 m2 : SendCall) (ks : List (Nat × List PAct)) : List PAct :=
  [.send m1 true, .tx .loadReady, .tx .loadFlag, .tx .runPosted, .tx .strand, .tx .strand, .send m2 true, .tx .loadReady, .tx (.transfer 0 4), .tx (.complete 0 true),
   .tx (.handler 0), .tx .strand, .tx (.transfer 0 4)] ++ ks.flatMap (fun k => .net k.1 :: k.2)

/-- The receiver handles one message. -/
def protoTake : List PAct := [.rx .loadDisp, .rx .handled, .rx .run, .rx .begin, .rx (.ret true), .rx .dis, .rx .dis]

def protoRun (P : Proto) (as : List PAct) : Option (List PEv) :=
  (GPipe.init (P.codec false (fun n => List.replicate n 7) (List.replicate P.rawLen 9))).bind (fun s0 => (GPipe.exec true 65536 100 s0 as).map (fun r => r.2))

theorem protoRun_run {P : Proto} {as : List PAct} {es : List PEv} (h : protoRun P as = some es) :
    ∃ (s0 s : GPipe (P.codec false (fun n => List.replicate n 7) (List.replicate P.rawLen 9))),
      GPipe.init (P.codec false (fun n => List.replicate n 7) (List.replicate P.rawLen 9)) = some s0 ∧ GPipe.Run true 65536 100 s0 as s es := by
  unfold protoRun at h
  rw [Option.bind_eq_some_iff] at h
  obtain ⟨s0, h0, h⟩ := h
  rw [Option.map_eq_some_iff] at h
  obtain ⟨⟨s, es'⟩, h1, h2⟩ := h
  simp only at h2
  subst h2
  exact ⟨s0, s, h0, GPipe.exec_run h1⟩

/-- Non-vacuity of C93, the pairs with a header: the stream is cut inside of the frames. -/
theorem C93_demo_header (st : Bool) :
    protoRun (.plain exCfg st) (protoDemo (.one [1, 2]) (.array [Piece.of [3, 4]]) [(3, []), (1, protoTake), (1, []), (3, protoTake)]) =
      some [.sent [1, 2], .sent [3, 4], .handled (if st then [1, 2] else [0, 4, 1, 2]) true, .handled (if st then [3, 4] else [0, 4, 3, 4]) true] ∧
    protoRun (.flexible exCfg st) (protoDemo (.one [1, 2]) (.array [Piece.of [3, 4]]) [(3, []), (1, protoTake), (1, []), (3, protoTake)]) =
      some [.sent [1, 2], .sent [3, 4], .handled (if st then [1, 2] else [0, 4, 1, 2]) true, .handled (if st then [3, 4] else [0, 4, 3, 4]) true] ∧
    protoRun (.nonCopy exCfg) (protoDemo (.one [1, 2]) (.two [3] [4]) [(1, []), (1, [.rx .handled]), (1, []), (1, protoTake), (2, [.rx .handled]), (2, protoTake)]) =
      some [.sent [1, 2], .sent [3, 4], .handled [1, 2] true, .handled [3, 4] true] := by
  cases st <;> decide +kernel

/-- The pairs without a header. -/
theorem C93_demo_plain :
    protoRun (.fixed exCfg 4) (protoDemo (.one [1, 2, 3, 4]) (.array [Piece.of [5, 6, 7], Piece.of [8]]) [(3, []), (1, protoTake), (4, protoTake)]) =
      some [.sent [1, 2, 3, 4], .sent [5, 6, 7, 8], .handled [1, 2, 3, 4] true, .handled [5, 6, 7, 8] true] ∧
    protoRun (.prefixSuffix exCfg ⟨[35], [36]⟩ true) (protoDemo (.list [[1], [2]]) (.array [Piece.of [3, 4]]) [(3, []), (2, protoTake), (3, protoTake)]) =
      some [.sent [1, 2], .sent [3, 4], .handled [1, 2] true, .handled [3, 4] true] ∧
    protoRun (.stream exCfg) (protoDemo (.one [1, 2, 3, 4]) (.list [[5], [6, 7, 8]]) [(3, protoTake), (5, protoTake)]) =
      some [.sent [1, 2, 3, 4], .sent [5, 6, 7, 8], .handled [1, 2, 3] true, .handled [4, 5, 6, 7, 8] true] := by
  decide +kernel

theorem readable_of (bs : List Bytes) (h : ∀ b ∈ bs, b.length < 2 ^ 64) : Readable (bs.map Piece.of) := by
  intro p hp mem hm
  rw [List.mem_map] at hp
  obtain ⟨b, hb, rfl⟩ := hp
  simp only [Piece.of, Option.some.injEq] at hm ⊢
  subst hm
  have := h b hb
  simp only [UInt64.toNat_ofNat']
  omega

/-- The settings and the calls of these runs are allowed. -/
example : (∀ st, (Proto.plain exCfg st).Valid ∧ (Proto.flexible exCfg st).Valid ∧ (Proto.prefixSuffix exCfg ⟨[35], [36]⟩ st).Valid) ∧ (Proto.nonCopy exCfg).Valid ∧ (Proto.fixed exCfg 4).Valid ∧
    (Proto.stream exCfg).Valid ∧ (∀ P : Proto, P ∈ [.plain exCfg true, .flexible exCfg false, .nonCopy exCfg, .prefixSuffix exCfg ⟨[35], [36]⟩ true] →
      P.Sendable (.one [1, 2]) ∧ P.Sendable (.array [Piece.of [3, 4]]) ∧ P.Sendable .heartbeat) ∧
    (Proto.fixed exCfg 4).Sendable (.array [Piece.of [5, 6, 7], Piece.of [8]]) ∧ (Proto.stream exCfg).Sendable (.list [[5], [6, 7, 8]]) := by
  have hv : exCfg.Valid := by decide
  refine ⟨fun st => ⟨⟨hv, by decide⟩, ⟨hv, by decide⟩, hv, by decide, by decide⟩, ⟨hv, by decide⟩, ⟨hv, by decide⟩, hv, ?_, ?_, ?_⟩
  · intro P hP
    have hr : Readable [Piece.of [3, 4]] := readable_of [[3, 4]] (by decide)
    have h1 : NoEarlySuffix [36] [1, 2] := by intro i; revert i; decide
    have h2 : NoEarlySuffix [36] [3, 4] := by intro i; revert i; decide
    have h3 : NoEarlySuffix [36] [] := by intro i; revert i; decide
    simp only [List.mem_cons, List.not_mem_nil, or_false] at hP
    rcases hP with rfl | rfl | rfl | rfl <;>
      refine ⟨⟨by simp, ?_⟩, ⟨fun ps h => by cases h; exact hr, ?_⟩, ⟨by simp, ?_⟩⟩ <;> first | trivial | exact h1 | exact h2 | exact h3
  · exact ⟨fun ps h => by cases h; exact readable_of [[5, 6, 7], [8]] (by decide), by simp, by decide⟩
  · exact ⟨by simp, by simp⟩

end StAsio
