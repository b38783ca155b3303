import Verif.Lemmas.Flexible
import Verif.Lemmas.Simple
import Verif.Lemmas.Sending
import Verif.Props.C10_C12_Packer
/-!
# C04, C05, C06, C09: the other unpackers

As in `C01_C03_Unpacker.lean`, `receive ops cwf u0 chunks` is a fresh connection on which the network delivers `chunks`.
`junk n` are the indeterminate `n` bytes of a freshly resized buffer, the theorems hold whatever they are.
-/
set_option autoImplicit false
namespace StAsio

/-- What it means for a connection that runs the unpacker `ops` to decode the length-prefixed protocol correctly:
for every stream and segmentation the frames before the first malformed head are handed out, the error is reported
as soon as such a head is complete and never otherwise, nothing undefined happens and a read is always outstanding. -/
def DecodesFrames {σ : Type} (ops : UnpackerOps σ) (u0 : σ) (hl maxLen : Nat) (stripped : Bool) : Prop :=
  ∀ (cwf : Bool) (chunks : List Bytes), ∃ k cap got want, receive ops cwf u0 chunks = some k ∧
    (match frames hl maxLen chunks.flatten with
      | (fs, .incomplete _) => k.log = (visible hl stripped fs).map .msg
      | (fs, .bad _) => ∃ t, k.log = (visible hl stripped fs).map .msg ++ [.unpackError] ++ t) ∧
    k.ph = .reading cap got want ∧ got < cap ∧ 0 < want

/-- What it means for it to deliver what peers send: exactly the messages whose last byte has arrived, in order, no error. -/
def DeliversSent {σ : Type} (ops : UnpackerOps σ) (u0 : σ) (c : Cfg) (stripped : Bool) : Prop :=
  ∀ (nd : Bool), c.bufSize < 256 ^ c.headLen ∨ nd = false →
  ∀ (sent : List (Item × Bytes)), (∀ x ∈ sent, Sends c nd x.1 x.2) →
  ∀ (cwf : Bool) (chunks : List Bytes) (later : Bytes), chunks.flatten ++ later = (sent.map (·.2)).flatten →
    ∃ k, receive ops cwf u0 chunks = some k ∧
      k.log = (arrived c.headLen stripped (sent.map (·.1)) chunks.flatten.length).map .msg ∧ k.ph ≠ .stalled

theorem decodesFrames_of_simulates {σ : Type} {ops : UnpackerOps σ} {u0 : σ} {hl maxLen : Nat} (hl0 : 0 < hl) {stripped : Bool}
    {R : Conn σ → Bytes → Prop} (hs : ∀ cwf, Simulates ops cwf (frameDec hl maxLen stripped) R)
    (h0 : ∃ c0, startRead ops u0 [] = some c0 ∧ c0.log = [] ∧ R c0 []) : DecodesFrames ops u0 hl maxLen stripped := by
  intro cwf chunks
  obtain ⟨k, hk, ha⟩ := receive_after (frameDec_incremental hl maxLen hl0 stripped) (hs cwf) h0 chunks
  obtain ⟨p, hp⟩ := ha.inv
  obtain ⟨cap, got, want, h1, h2, h3⟩ := (hs cwf).reading k p hp
  refine ⟨k, cap, got, want, hk, ?_, h1, h3, h2⟩
  unfold After frameDec at ha
  generalize frames hl maxLen chunks.flatten = F at ha ⊢
  obtain ⟨fs, r | r⟩ := F
  · simp only at ha ⊢; simpa [msgs] using ha.1
  · simp only at ha ⊢; simpa [msgs] using ha.1

theorem deliversSent_of_decodes {σ : Type} {ops : UnpackerOps σ} {u0 : σ} {c : Cfg} (hv : c.Valid) {stripped : Bool}
    (h : DecodesFrames ops u0 c.headLen c.bufSize stripped) : DeliversSent ops u0 c stripped := by
  intro nd hr sent hsent cwf chunks later hstream
  have hl0 := c.headLen_pos
  obtain ⟨hw, hi⟩ := sends_stream hv hr sent hsent
  rw [hw] at hstream
  obtain ⟨h1, r, h2⟩ := frames_arrived hl0 stripped _ hi _ _ hstream
  obtain ⟨k, cap, got, want, hk, hlog, hph, _, _⟩ := h cwf chunks
  have hF : frames c.headLen c.bufSize chunks.flatten = ((frames c.headLen c.bufSize chunks.flatten).1, .incomplete r) := Prod.ext rfl h2
  rw [hF] at hlog
  simp only at hlog
  exact ⟨k, hk, by rw [hlog, ← h1], by rw [hph]; simp⟩

/-- C04. `flexible_unpacker`, delivery of what was sent: small and big messages (up to the limit), heartbeats. -/
theorem C04_flexible_delivery (c : Cfg) (hv : c.Valid) (junk : Nat → Bytes) (hj : ∀ n, (junk n).length = n) (raw : Bytes)
    (hraw : raw.length = flexSize) (stripped : Bool) : DeliversSent (flexOps c junk) (Flex.init raw stripped) c stripped :=
  deliversSent_of_decodes hv (decodesFrames_of_simulates c.headLen_pos (fun cwf => flex_simulates c hv junk hj stripped cwf)
    (flex_start c hv junk raw hraw stripped))

/-- C04. `flexible_unpacker` on an arbitrary byte stream: safe, live, errors reported exactly when due. -/
theorem C04_flexible_decodes (c : Cfg) (hv : c.Valid) (junk : Nat → Bytes) (hj : ∀ n, (junk n).length = n) (raw : Bytes)
    (hraw : raw.length = flexSize) (stripped : Bool) :
    DecodesFrames (flexOps c junk) (Flex.init raw stripped) c.headLen c.bufSize stripped :=
  decodesFrames_of_simulates c.headLen_pos (fun cwf => flex_simulates c hv junk hj stripped cwf) (flex_start c hv junk raw hraw stripped)

/-- Non-vacuity of C04: a buffer limit of 10000 admits messages that exceed the fixed 4000 byte buffer. -/
example : (Cfg.mk false 10000).Valid ∧ (Cfg.mk false 10000).bufSize < 256 ^ (Cfg.mk false 10000).headLen ∧ flexSize < 5000 := by decide
example : ∃ bytes, Sends (Cfg.mk false 10000) true (List.replicate 5000 7) bytes :=
  ⟨_, Sends.one (List.replicate 5000 7) { ok := true, left := [[]], can := [be 2 5002, List.replicate 5000 7] } (by
    have hl : (List.replicate 5000 (7 : Byte)).length = 5000 := List.length_replicate ..
    generalize List.replicate 5000 (7 : Byte) = m at hl
    have h := packHeader_ok (Cfg.mk false 10000) true m.length (by rw [hl]; decide) (by rw [hl]; decide)
    have hn : ¬ (maxMsgSize (Cfg.mk false 10000) < m.length) := by rw [hl]; decide
    simp only [packOne, hn, if_false, h, hl]
    rfl) rfl⟩

/-- C05. `non_copy_unpacker` (it always strips the head), delivery of what was sent. -/
theorem C05_non_copy_delivery (c : Cfg) (hv : c.Valid) (junk : Nat → Bytes) (hj : ∀ n, (junk n).length = n) (head : Bytes)
    (hh : head.length = c.headLen) : DeliversSent (nonCopyOps c junk) (NonCopy.init head) c true :=
  deliversSent_of_decodes hv (decodesFrames_of_simulates c.headLen_pos (fun cwf => nonCopy_simulates c hv junk hj cwf)
    (nonCopy_start0 c junk head hh []))

/-- C05. `non_copy_unpacker` on an arbitrary byte stream; in particular it never offers an empty buffer. -/
theorem C05_non_copy_decodes (c : Cfg) (hv : c.Valid) (junk : Nat → Bytes) (hj : ∀ n, (junk n).length = n) (head : Bytes)
    (hh : head.length = c.headLen) : DecodesFrames (nonCopyOps c junk) (NonCopy.init head) c.headLen c.bufSize true :=
  decodesFrames_of_simulates c.headLen_pos (fun cwf => nonCopy_simulates c hv junk hj cwf) (nonCopy_start0 c junk head hh [])

/-- Non-vacuity of C05 (with the senders of C01): a run with a message and a malformed head. -/
example : (receive (nonCopyOps { huge := false, bufSize := 8 } (fun n => List.replicate n 0)) true (NonCopy.init [9, 9])
    [[0], [4, 1], [2, 0, 2, 0, 9]]).map Conn.log = some [.msg [1, 2], .unpackError] := by decide

/-- C06. `fixed_length_packer` puts the message on the wire as it is. -/
theorem C06_packer_verbatim (c : Cfg) (hv : c.Valid) :
    (∀ ps m, Readable ps → flPackArray c (some ps) = some (true, m) → m = content ps) ∧
    (∀ m can, (flPackOne m can).ok = true ∧ (flPackOne m can).can.flatten = can.flatten ++ m) ∧
    (∀ m1 m2 can, (flPackTwo m1 m2 can).ok = true ∧ (flPackTwo m1 m2 can).can.flatten = can.flatten ++ (m1 ++ m2)) := by
  refine ⟨?_, ?_, ?_⟩
  · intro ps m hr h
    have h2 := C10_pack_array c hv true ps hr
    unfold flPackArray at h
    rw [h] at h2
    simp at h2
    split at h2
    · have hc := content_length ps hr
      simp only [Option.some.injEq, Prod.mk.injEq, true_and] at h2
      rw [h2]
      split
      · exact (List.length_eq_zero_iff.mp (by omega)).symm
      · rfl
    · simp at h2
  · intro m can; simp [flPackOne]
  · intro m1 m2 can; simp [flPackTwo, List.append_assoc]

/-- C06. `fixed_length_unpacker` with length `len`: of messages of that length, exactly those that have arrived
completely are handed out, in order, without error, however the stream is segmented. -/
theorem C06_fixed_length (len : Nat) (h0 : 0 < len) (junk : Nat → Bytes) (hj : ∀ n, (junk n).length = n) (cwf : Bool) (u : Fixed)
    (ms : List Bytes) (hms : ∀ m ∈ ms, m.length = len) (chunks : List Bytes) (later : Bytes)
    (hstream : chunks.flatten ++ later = ms.flatten) :
    ∃ k cap got want, receive (fixedOps junk len) cwf u chunks = some k ∧
      k.log = (ms.take (chunks.flatten.length / len)).map .msg ∧
      k.ph = .reading cap got want ∧ got < cap ∧ 0 < want := by
  obtain ⟨k, hk, ha⟩ := receive_after (fixedDec_incremental len h0) (fixed_simulates h0 junk hj cwf) (fixed_start h0 junk hj u []) chunks
  obtain ⟨p, hp⟩ := ha.inv
  obtain ⟨cap, got, want, h1, h2, h3⟩ := (fixed_simulates h0 junk hj cwf).reading k p hp
  refine ⟨k, cap, got, want, hk, ?_, h1, h3, h2⟩
  unfold After fixedDec at ha
  have := pieces_messages h0 ms hms chunks.flatten later hstream
  simp only at ha
  rw [ha.1, this]
  simp [msgs]

/-- Non-vacuity of C06. -/
example : (receive (fixedOps (fun n => List.replicate n 0) 3) false [] [[1], [2, 3, 4, 5], [6, 7]]).map Conn.log = some [.msg [1, 2, 3], .msg [4, 5, 6]] := by
  decide

/-- C06: fixed_length_packer inherits pack_heartbeat from packer (packer.h:141, 245), which succeeds; so with a heartbeat interval, heads of 2 bytes get into the stream, and the receiver's messages are shifted from then on (messages of 4 bytes here). -/
theorem C06_fails_heartbeat : ∃ hb, packHeartbeat { huge := false, bufSize := 8 } false = some hb ∧
    (receive (fixedOps (fun n => List.replicate n 0) 4) false [] [[1, 2, 3, 4], hb, [5, 6, 7, 8], [1, 2, 3, 4]]).map (·.log) = some [.msg [1, 2, 3, 4], .msg [0, 2, 5, 6], .msg [7, 8, 1, 2]] :=
  ⟨_, rfl, by decide +kernel⟩

/-- C09. `stream_unpacker`: the concatenation of the messages handed out is exactly the received byte stream (nothing
withheld), no message is empty, there is never an error and reception never stalls. -/
theorem C09_stream (c : Cfg) (h0 : 0 < c.bufSize) (raw : Bytes) (hraw : raw.length = c.bufSize) (cwf : Bool) (chunks : List Bytes) :
    ∃ k, ∃ ms : List Bytes, receive (streamOps c) cwf raw chunks = some k ∧ k.log = ms.map .msg ∧ ms.flatten = chunks.flatten ∧
      (∀ m ∈ ms, m ≠ [] ∧ m.length ≤ c.bufSize) ∧ k.ph = .reading c.bufSize 0 c.bufSize := by
  obtain ⟨k0, h1, hi0⟩ := stream_start c h0 raw hraw
  obtain ⟨k, h2, hi⟩ := stream_feedAll c h0 cwf chunks k0 [] hi0
  obtain ⟨ms, h3, h4, h5⟩ := hi.log
  refine ⟨k, ms, ?_, by simpa [msgs] using h3, by simpa using h4, h5, hi.ph⟩
  simp [receive, h1, h2]

/-- Non-vacuity of C09. -/
example : (receive (streamOps { huge := false, bufSize := 4 }) true [0, 0, 0, 0] [[1], [2, 3, 4, 5, 6], []]).map Conn.log =
    some [.msg [1], .msg [2, 3, 4, 5], .msg [6]] := by decide

/-- C09. `udp_unpacker`: exactly one message per non-empty datagram that fits into the buffer, with exactly its bytes, in
order of arrival (`udp_recv_all`: no datagram exceeds the buffer). -/
theorem C09_udp (c : Cfg) (raw : Bytes) (hraw : raw.length = c.bufSize) (ds : List Bytes) (hds : ∀ d ∈ ds, d.length ≤ c.bufSize) :
    Udp.datagrams c raw ds = some (ds.filter (fun d => decide (d ≠ []))) := by
  rw [udp_datagrams c ds raw hraw]
  congr 2
  conv => rhs; rw [← List.map_id ds]
  exact List.map_congr_left (fun d hd => by simp [List.take_of_length_le (hds d hd)])

/-- C09. A datagram larger than the buffer yields its first bytes, as the operating system delivers them. -/
theorem C09_udp_truncation (c : Cfg) (raw : Bytes) (hraw : raw.length = c.bufSize) (ds : List Bytes) :
    Udp.datagrams c raw ds = some ((ds.map (List.take c.bufSize)).filter (fun d => decide (d ≠ []))) := udp_datagrams c ds raw hraw

example : Udp.datagrams { huge := false, bufSize := 3 } [9, 9, 9] [[1, 2], [], [3]] = some [[1, 2], [3]] := by decide

end StAsio
