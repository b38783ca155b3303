import Verif.Lemmas.Unpacker
import Verif.Lemmas.Sending
/-!
# C01, C02, C03: the default length-prefixed protocol

The theorems are about `receive (unpackerOps c) cwf (Unp.init raw stripped) chunks`: a fresh connection with
`ext::unpacker` on which the network delivers `chunks` one after the other (`Model/Reader.lean`).
`none` is undefined behaviour or a failed assert, `.stalled` a connection that does not read any more.
-/
set_option autoImplicit false
namespace StAsio

/-- C01. Whatever was sent, by whatever overload of the packer, and however the stream (or any prefix of it) is cut into
reads: the application has received exactly the messages whose last byte has arrived, in order, without any
unpack error, and the connection goes on reading. -/
theorem C01_default_delivery (c : Cfg) (hv : c.Valid) (nd : Bool) (hr : c.bufSize < 256 ^ c.headLen ∨ nd = false)
    (raw : Bytes) (hraw : raw.length = c.bufSize) (stripped cwf : Bool)
    (sent : List (Item × Bytes)) (hsent : ∀ x ∈ sent, Sends c nd x.1 x.2)
    (chunks : List Bytes) (later : Bytes) (hstream : chunks.flatten ++ later = (sent.map (·.2)).flatten) :
    ∃ k, receive (unpackerOps c) cwf (Unp.init raw stripped) chunks = some k ∧
      k.log = (arrived c.headLen stripped (sent.map (·.1)) chunks.flatten.length).map .msg ∧
      k.ph ≠ .stalled := by
  have hl0 := c.headLen_pos
  obtain ⟨hw, hi⟩ := sends_stream hv hr sent hsent
  rw [hw] at hstream
  obtain ⟨h1, r, h2⟩ := frames_arrived hl0 stripped _ hi _ _ hstream
  obtain ⟨k, hk, ha⟩ := receive_after (frameDec_incremental c.headLen c.bufSize hl0 stripped)
    (unpacker_simulates c hv stripped cwf) (unpacker_start c hv raw hraw stripped) chunks
  refine ⟨k, hk, ?_, ha.not_stalled (unpacker_simulates c hv stripped cwf)⟩
  unfold After frameDec at ha
  simp only [h2] at ha
  rw [ha.1, ← h1]
  simp [msgs]

/-- Non-vacuity of C01: a 2-byte head, an 8 byte buffer; a message, a heartbeat and a message of maximal size. -/
def exCfg : Cfg := { huge := false, bufSize := 8 }
example : exCfg.Valid ∧ exCfg.bufSize < 256 ^ exCfg.headLen := by decide
example : Sends exCfg true [1, 2] [0, 4, 1, 2] :=
  Sends.array [Piece.of [1], { ptr := none, len := 3 }, Piece.of [2]] _ (by
    intro p hp mem hm; simp [Piece.of] at hp; rcases hp with rfl | rfl | rfl <;> simp at hm <;> subst hm <;> decide) (by decide) (by decide)
example : Sends exCfg true [] [0, 2] := Sends.heartbeat _ _ rfl (by decide)
example : Sends exCfg true [1, 2, 3, 4, 5, 6] [0, 8, 1, 2, 3, 4, 5, 6] := Sends.two [1, 2] [3, 4, 5, 6] { ok := true, left := [[], []], can := [[0, 8], [1, 2], [3, 4, 5, 6]] } (by decide) rfl
example : (arrived 2 true [[1, 2], [], [1, 2, 3, 4, 5, 6]] 13 = [[1, 2]]) ∧
    (arrived 2 true [[1, 2], [], [1, 2, 3, 4, 5, 6]] 14 = [[1, 2], [1, 2, 3, 4, 5, 6]]) := by decide

/-- C02. For an arbitrary byte stream and segmentation: exactly the well-formed frames before the first malformed head
are handed out; the error is reported as soon as such a head is complete, and never otherwise. -/
theorem C02_malformed_detected (c : Cfg) (hv : c.Valid) (raw : Bytes) (hraw : raw.length = c.bufSize) (stripped cwf : Bool)
    (chunks : List Bytes) :
    ∃ k, receive (unpackerOps c) cwf (Unp.init raw stripped) chunks = some k ∧
      match frames c.headLen c.bufSize chunks.flatten with
      | (fs, .incomplete _) => k.log = (visible c.headLen stripped fs).map .msg
      | (fs, .bad _) => ∃ t, k.log = (visible c.headLen stripped fs).map .msg ++ [.unpackError] ++ t := by
  have hl0 := c.headLen_pos
  obtain ⟨k, hk, ha⟩ := receive_after (frameDec_incremental c.headLen c.bufSize hl0 stripped)
    (unpacker_simulates c hv stripped cwf) (unpacker_start c hv raw hraw stripped) chunks
  refine ⟨k, hk, ?_⟩
  unfold After frameDec at ha
  generalize frames c.headLen c.bufSize chunks.flatten = F at ha ⊢
  obtain ⟨fs, r | r⟩ := F
  · simp only at ha ⊢; simpa [msgs] using ha.1
  · simp only at ha ⊢; simpa [msgs] using ha.1

/-- Non-vacuity of C02: a good frame followed by a head that is too large, and one that is smaller than a head. -/
example : frames 2 8 [0, 3, 7, 0, 9, 1] = ([[0, 3, 7]], .bad [0, 9, 1]) ∧
    frames 2 8 [0, 3, 7, 0, 1] = ([[0, 3, 7]], .bad [0, 1]) ∧
    frames 2 8 [0, 3, 7, 0] = ([[0, 3, 7]], .incomplete [0]) := by decide +kernel

/-- C03. For an arbitrary byte stream and segmentation (also after errors): no out-of-bounds access and no failing
assert (the result is not `none`), and at any time a read into a non-empty free space is outstanding that will
take at least one byte. -/
theorem C03_safe_and_live (c : Cfg) (hv : c.Valid) (raw : Bytes) (hraw : raw.length = c.bufSize) (stripped cwf : Bool)
    (chunks : List Bytes) :
    ∃ k cap got want, receive (unpackerOps c) cwf (Unp.init raw stripped) chunks = some k ∧
      k.ph = .reading cap got want ∧ got < cap ∧ 0 < want := by
  have hl0 := c.headLen_pos
  obtain ⟨k, hk, ha⟩ := receive_after (frameDec_incremental c.headLen c.bufSize hl0 stripped)
    (unpacker_simulates c hv stripped cwf) (unpacker_start c hv raw hraw stripped) chunks
  obtain ⟨p, hp⟩ := ha.inv
  obtain ⟨cap, got, want, h1, h2, h3⟩ := (unpacker_simulates c hv stripped cwf).reading k p hp
  exact ⟨k, cap, got, want, hk, h1, h3, h2⟩

/-- Non-vacuity of C03: every configuration allowed by the macros, for instance the default one. -/
example : (Cfg.mk false 4000).Valid ∧ (List.replicate 4000 (0 : Byte)).length = 4000 := ⟨by decide, List.length_replicate ..⟩

end StAsio
