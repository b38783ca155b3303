import Verif.Model.RawData
import Verif.Spec.RawData
import Verif.Props.C01_C03_Unpacker
import Verif.Props.C04_C06_C09_Unpackers
import Verif.Props.C07_C08_PrefixSuffix
/-!
C68: raw_data() and raw_data_len() give the body of a message, of packed messages (on_msg_send) as well as of received ones, stripped or not.
-/
set_option autoImplicit false
namespace StAsio

theorem w64sub_le {a b : Nat} (h1 : b ≤ a) (h2 : a < 2 ^ 64) : w64sub a b = a - b := by
  unfold w64sub
  rw [Nat.mod_eq_of_lt (by omega : b < 2 ^ 64)]
  have : a + (2 ^ 64 - b) = (a - b) + 2 ^ 64 := by omega
  rw [this, Nat.add_mod_right, Nat.mod_eq_of_lt (by omega)]

theorem readRaw_mid (a b d : Bytes) : readRaw (a ++ b ++ d) (a.length, b.length) = some b := by
  have h : a.length + b.length ≤ (a ++ b ++ d).length := by simp
  rw [readRaw, if_pos h]
  simp

theorem readRaw_ne {m : Bytes} {r : Nat × Nat} (h0 : 0 < r.1) (hne : m ≠ []) : readRaw m r ≠ some m := by
  intro h
  have hpos : 0 < m.length := List.length_pos_iff.mpr hne
  by_cases hle : r.1 + r.2 ≤ m.length
  · rw [readRaw, if_pos hle] at h
    have := congrArg List.length (Option.some.inj h)
    simp only [List.length_take, List.length_drop] at this
    omega
  · rw [readRaw, if_neg hle] at h
    simp at h

theorem packerRaw_wire (c : Cfg) (b : Bytes) (h : c.headLen + b.length < 2 ^ 64) : readRaw (wire c.headLen b) (packerRaw c (wire c.headLen b)) = some b := by
  have hl : (wire c.headLen b).length = c.headLen + b.length := by simp [wire, be_length]
  have e : packerRaw c (wire c.headLen b) = ((be c.headLen (c.headLen + b.length)).length, b.length) := by
    rw [packerRaw, w64sub_le (by omega) (by omega), hl, be_length]
    congr 1; omega
  rw [e]
  have := readRaw_mid (be c.headLen (c.headLen + b.length)) b []
  simpa [wire] using this

theorem psPackerRaw_wire (p : PsCfg) (b : Bytes) (h : (psWire p.pre p.suf b).length < 2 ^ 64) : readRaw (psWire p.pre p.suf b) (psPackerRaw p (psWire p.pre p.suf b)) = some b := by
  have hl := psWire_length p.pre p.suf b
  have e : psPackerRaw p (psWire p.pre p.suf b) = (p.pre.length, b.length) := by
    have e1 : w64sub (psWire p.pre p.suf b).length p.pre.length = b.length + p.suf.length := by rw [w64sub_le (by omega) (by omega)]; omega
    rw [psPackerRaw, e1, w64sub_le (by omega) (by omega)]
    congr 1; omega
  rw [e, psWire]
  exact readRaw_mid p.pre b p.suf

/-- Sending: a message packed from an array (send_msg(pstr, len, …)) whose body is not empty, as on_msg_send sees it. Partial: see C68_fails_empty, C68_fails_pieces, C68_fails_fixed_length for the other ways to send. -/
theorem C68_packed_partial (c : Cfg) (hv : c.Valid) (ps : List Piece) (hr : Readable ps) (hne : content ps ≠ []) (m : Bytes) :
    (packArray c false (some ps) = some (true, m) → readRaw m (packerRaw c m) = some (content ps)) ∧
    (∀ p : PsCfg, p.Valid c → psPackArray c p false (some ps) = some (true, m) → readRaw m (psPackerRaw p m) = some (content ps)) := by
  have hb := hv.2
  have hlen := content_length ps hr
  have hpos : 0 < totalLen ps := by rw [← hlen]; exact List.length_pos_iff.mpr hne
  constructor
  · intro h
    rw [C10_pack_array c hv false ps hr] at h
    simp only [Bool.false_eq_true, if_false] at h
    split at h
    · next hf =>
      simp only [Option.some.injEq, Prod.mk.injEq, true_and] at h
      rw [if_neg (by omega)] at h
      rw [← h]
      exact packerRaw_wire c _ (by omega)
    · simp at h
  · intro p hp h
    rw [C11_prefix_suffix_array c hv p hp false ps hr] at h
    simp only [Bool.false_eq_true, if_false] at h
    split at h
    · next hf =>
      simp only [Option.some.injEq, Prod.mk.injEq, true_and] at h
      rw [if_neg (by omega)] at h
      rw [← h]
      have := psPackerRaw_wire p (content ps) (by rw [psWire_length]; omega)
      simpa [psWire] using this
    · simp at h

/-- Heartbeats: the body is empty. -/
theorem C68_heartbeat (c : Cfg) (hv : c.Valid) (nd : Bool) (m : Bytes) : (packHeartbeat c nd = some m → readRaw m (packerRaw c m) = some []) ∧ ∀ p : PsCfg, p.Valid c → readRaw (psPackHeartbeat p) (psPackerRaw p (psPackHeartbeat p)) = some [] := by
  have hb := hv.2
  constructor
  · intro h
    have hl : m.length = c.headLen := by
      have : m = be c.headLen ((c.headLen + 0) % 256 ^ c.headLen) := by
        simp only [packHeartbeat, packHeader, Option.bind_eq_bind, Option.pure_def] at h
        repeat' split at h
        all_goals first | exact (Option.some.inj h).symm | (simp [failure] at h; try done) | skip
      rw [this, be_length]
    have : c.headLen ≤ 4 := by unfold Cfg.headLen; split <;> omega
    rw [packerRaw, w64sub_le (by omega) (by omega), readRaw, if_pos (by simp only; omega)]
    simp [hl]
  · intro p hp
    have := psPackerRaw_wire p [] (by rw [psWire_length]; have := hp.2; simp only [List.length_nil]; omega)
    simpa [psWire, psPackHeartbeat] using this

theorem raw_arrived (c : Cfg) (stripped : Bool) : ∀ (items : List Item) (n : Nat), (∀ b ∈ items, c.headLen + b.length < 2 ^ 64) →
    (arrived c.headLen stripped items n).map (fun m => readRaw m (unpackerRaw c stripped m)) = (arrived c.headLen true items n).map some := by
  intro items
  induction items with
  | nil => intro n _; rfl
  | cons b items ih =>
    intro n hs
    have hb := hs b (by simp)
    simp only [arrived]
    split
    · rfl
    · rw [List.map_append, List.map_append, ih _ (fun x hx => hs x (by simp [hx]))]
      congr 1
      split
      · rfl
      · cases stripped with
        | true => simp [unpackerRaw, readRaw]
        | false =>
          have := packerRaw_wire c b hb
          simpa [unpackerRaw, packerRaw] using this

/-- Reception with unpacker or flexible_unpacker, stripped or not (or any other unpacker that delivers what was sent): raw_data and raw_data_len of the messages received are the bodies that were sent (`arrived … true`). -/
theorem C68_received {σ : Type} (ops : UnpackerOps σ) (u0 : σ) (c : Cfg) (hv : c.Valid) (stripped : Bool) (hd : DeliversSent ops u0 c stripped) (nd : Bool) (hr : c.bufSize < 256 ^ c.headLen ∨ nd = false)
    (sent : List (Item × Bytes)) (hsent : ∀ x ∈ sent, Sends c nd x.1 x.2) (cwf : Bool) (chunks : List Bytes) (later : Bytes) (hstream : chunks.flatten ++ later = (sent.map (·.2)).flatten) :
    ∃ k, ∃ ms : List Bytes, receive ops cwf u0 chunks = some k ∧ k.log = ms.map .msg ∧
      ms.map (fun m => readRaw m (unpackerRaw c stripped m)) = (arrived c.headLen true (sent.map (·.1)) chunks.flatten.length).map some := by
  obtain ⟨k, h1, h2, _⟩ := hd nd hr sent hsent cwf chunks later hstream
  refine ⟨k, _, h1, h2, raw_arrived c stripped _ _ ?_⟩
  intro b hb
  obtain ⟨x, hx, rfl⟩ := List.mem_map.mp hb
  have h3 := ((hsent x hx).wire hv hr).2.1
  have := hv.2
  omega

/-- The two unpackers C68_received is about. -/
theorem C68_received_unpacker (c : Cfg) (hv : c.Valid) (stripped : Bool) (raw : Bytes) (hraw : raw.length = c.bufSize) : DeliversSent (unpackerOps c) (Unp.init raw stripped) c stripped :=
  fun nd hr sent hsent cwf chunks later hstream => C01_default_delivery c hv nd hr raw hraw stripped cwf sent hsent chunks later hstream

theorem C68_received_flexible (c : Cfg) (hv : c.Valid) (stripped : Bool) (junk : Nat → Bytes) (hj : ∀ n, (junk n).length = n) (raw : Bytes) (hraw : raw.length = flexSize) : DeliversSent (flexOps c junk) (Flex.init raw stripped) c stripped :=
  C04_flexible_delivery c hv junk hj raw hraw stripped

theorem raw_psArrived (p : PsCfg) (stripped : Bool) : ∀ (items : List Item) (n : Nat), (∀ b ∈ items, (psWire p.pre p.suf b).length < 2 ^ 64) →
    (psArrived p.pre p.suf stripped items n).map (fun m => readRaw m (psUnpackerRaw p stripped m)) = (psArrived p.pre p.suf true items n).map some := by
  intro items
  induction items with
  | nil => intro n _; rfl
  | cons b items ih =>
    intro n hs
    have hb := hs b (by simp)
    simp only [psArrived]
    split
    · rfl
    · rw [List.map_append, List.map_append, ih _ (fun x hx => hs x (by simp [hx]))]
      congr 1
      split
      · rfl
      · cases stripped with
        | true => simp [psUnpackerRaw, readRaw]
        | false =>
          have := psPackerRaw_wire p b hb
          simpa [psUnpackerRaw, psPackerRaw] using this

/-- Reception with prefix_suffix_unpacker. -/
theorem C68_received_prefix_suffix (c : Cfg) (hv : c.Valid) (p : PsCfg) (hp : p.Valid c) (raw : Bytes) (hraw : raw.length = c.bufSize) (stripped cwf : Bool) (sent : List (Item × Bytes)) (hsent : ∀ x ∈ sent, PsSends c p x.1 x.2)
    (hearly : ∀ x ∈ sent, NoEarlySuffix p.suf x.1) (chunks : List Bytes) (later : Bytes) (hstream : chunks.flatten ++ later = (sent.map (·.2)).flatten) :
    ∃ k, ∃ ms : List Bytes, receive (psOps c p) cwf (Ps.init raw stripped) chunks = some k ∧ k.log = ms.map .msg ∧
      ms.map (fun m => readRaw m (psUnpackerRaw p stripped m)) = (psArrived p.pre p.suf true (sent.map (·.1)) chunks.flatten.length).map some := by
  obtain ⟨k, h1, h2, _⟩ := C07_prefix_suffix_delivery c hv p hp raw hraw stripped cwf sent hsent hearly chunks later hstream
  refine ⟨k, _, h1, h2, raw_psArrived p stripped _ _ ?_⟩
  intro b hb
  obtain ⟨x, hx, rfl⟩ := List.mem_map.mp hb
  have h3 := ((hsent x hx).wire hv hp).2
  have := hv.2
  omega

/-- The other unpackers have no head: all of the message. -/
theorem C68_plain (m : Bytes) : readRaw m (plainRaw m) = some m := by simp [readRaw, plainRaw]

/-- Packing nothing succeeds with an empty message; its raw_data_len is almost 2^64, reading it is an error. -/
theorem C68_fails_empty (c : Cfg) (hv : c.Valid) : packArray c false (some []) = some (true, []) ∧ (packerRaw c []).2 = 2 ^ 64 - c.headLen ∧ readRaw [] (packerRaw c []) = none := by
  have h0 := c.headLen_pos
  have h4 : c.headLen ≤ 4 := by unfold Cfg.headLen; split <;> omega
  have h := C10_pack_array c hv false [] (by intro p hp; simp at hp)
  have e : totalLen [] = 0 := rfl
  rw [e, if_pos ⟨by simpa using hv.1, Or.inr (Or.inl rfl)⟩, if_pos rfl] at h
  have h2 : w64sub 0 c.headLen = 2 ^ 64 - c.headLen := by
    unfold w64sub
    rw [Nat.mod_eq_of_lt (by omega : c.headLen < 2 ^ 64)]
    omega
  refine ⟨h, by simpa [packerRaw] using h2, ?_⟩
  simp only [readRaw, packerRaw, List.length_nil, h2]
  rw [if_neg (by omega)]

/-- A message given as an object (send_msg(msg)) is sent as two messages, head and body; the body's raw_data is the body without its first bytes, or outside of it. -/
theorem C68_fails_pieces (c : Cfg) (hv : c.Valid) (hr : c.bufSize < 256 ^ c.headLen) (nd : Bool) (m : Bytes) (hne : m ≠ []) (hfit : c.headLen + m.length ≤ c.bufSize) :
    ∃ head, (packOne c nd m []).map (·.can) = some [head, m] ∧ readRaw m (packerRaw c m) ≠ some m := by
  refine ⟨_, by rw [(C11_zero_copy c hv hr nd m [] [] [] []).1, if_pos hfit]; rfl, ?_⟩
  exact readRaw_ne c.headLen_pos hne

/-- fixed_length_packer inherits raw_data from packer although its messages have no head. -/
theorem C68_fails_fixed_length (c : Cfg) (hv : c.Valid) (ps : List Piece) (hr : Readable ps) (hne : content ps ≠ []) (m : Bytes) (h : flPackArray c (some ps) = some (true, m)) : readRaw m (packerRaw c m) ≠ some (content ps) := by
  have hm := (C06_packer_verbatim c hv).1 ps m hr h
  subst hm
  exact readRaw_ne c.headLen_pos hne

/-- stripped(…) called between reception and raw_data: the first bytes of the body are lost, or the head is taken for a part of the body. -/
theorem C68_fails_switched (c : Cfg) (b : Bytes) (hne : b ≠ []) : readRaw b (unpackerRaw c false b) ≠ some b ∧ readRaw (wire c.headLen b) (unpackerRaw c true (wire c.headLen b)) ≠ some b := by
  have h0 := c.headLen_pos
  have hpos : 0 < b.length := List.length_pos_iff.mpr hne
  constructor
  · exact readRaw_ne c.headLen_pos hne
  · intro h
    simp only [readRaw, unpackerRaw, if_true, Nat.zero_add, Nat.le_refl, List.drop_zero, List.take_length, Option.some.injEq] at h
    have := congrArg List.length h
    rw [wire_length] at this
    omega

/-- A buffer of 8 bytes, heads of 2. -/
def rawCfg : Cfg := { huge := false, bufSize := 8 }

/-- Non-vacuity of C68_packed_partial: a message of two pieces, one of them null. -/
example : packArray rawCfg false (some [⟨some [1, 2], 2⟩, ⟨none, 7⟩, ⟨some [3], 1⟩]) = some (true, [0, 5, 1, 2, 3]) ∧ readRaw [0, 5, 1, 2, 3] (packerRaw rawCfg [0, 5, 1, 2, 3]) = some [1, 2, 3] := by decide +kernel

/-- Non-vacuity of C68_received: unstripped reception of a message, a heartbeat and a message. -/
example : (receive (unpackerOps rawCfg) false (Unp.init (List.replicate 8 0) false) [[0, 4, 1], [2, 0, 2, 0, 3], [7]]).map (·.log) = some [.msg [0, 4, 1, 2], .msg [0, 3, 7]] ∧
    [[0, 4, 1, 2], [0, 3, 7]].map (fun m => readRaw m (unpackerRaw rawCfg false m)) = [some [1, 2], some [7]] := by decide +kernel

/-- Non-vacuity of C68_received_prefix_suffix. -/
example : (receive (psOps rawCfg ⟨[8], [9, 9]⟩) false (Ps.init (List.replicate 8 0) false) [[8, 1, 9, 9, 8], [9, 9], [8, 4, 5, 9, 9]]).map (·.log) = some [.msg [8, 1, 9, 9], .msg [8, 4, 5, 9, 9]] ∧
    [[8, 1, 9, 9], [8, 4, 5, 9, 9]].map (fun m => readRaw m (psUnpackerRaw ⟨[8], [9, 9]⟩ false m)) = [some [1], some [4, 5]] := by decide +kernel

/-- Non-vacuity of C68_fails_fixed_length. -/
example : flPackArray rawCfg (some [⟨some [1, 2, 3], 3⟩]) = some (true, [1, 2, 3]) ∧ readRaw [1, 2, 3] (packerRaw rawCfg [1, 2, 3]) = some [3] := by decide +kernel

end StAsio
