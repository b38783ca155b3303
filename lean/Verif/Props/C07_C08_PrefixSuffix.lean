import Verif.Lemmas.PrefixSuffix
import Verif.Props.C10_C12_Packer
/-!
# C07, C08: the prefix/suffix protocol
-/
set_option autoImplicit false
namespace StAsio

/-- Some overload of `prefix_suffix_packer` packs the body `item` (empty: heartbeat) successfully into `bytes`. -/
inductive PsSends (c : Cfg) (p : PsCfg) : Item → Bytes → Prop where
  | array (ps : List Piece) (bytes : Bytes) : Readable ps → content ps ≠ [] →
      psPackArray c p false (some ps) = some (true, bytes) → PsSends c p (content ps) bytes
  | one (m : Bytes) : (psPackOne c p m []).ok = true → PsSends c p m (psPackOne c p m []).can.flatten
  | two (m1 m2 : Bytes) : (psPackTwo c p m1 m2 []).ok = true → PsSends c p (m1 ++ m2) (psPackTwo c p m1 m2 []).can.flatten
  | list (ms : List Bytes) : (psPackList c p ms []).ok = true → PsSends c p ms.flatten (psPackList c p ms []).can.flatten
  | heartbeat (item bytes : Bytes) : item = [] → psPackHeartbeat p = bytes → PsSends c p item bytes

theorem PsSends.wire {c : Cfg} (hv : c.Valid) {p : PsCfg} (hp : p.Valid c) {item bytes : Bytes} (h : PsSends c p item bytes) :
    bytes = psWire p.pre p.suf item ∧ (psWire p.pre p.suf item).length ≤ c.bufSize := by
  have hb := hp.2
  have mk : ∀ (b : Bytes) (r : Packed) (inp : List Bytes),
      (p.pre.length + b.length + p.suf.length ≤ c.bufSize → r.ok = true ∧ r.left.flatten = [] ∧ r.can.flatten = ([] : List Bytes).flatten ++ (p.pre ++ b ++ p.suf)) →
      (¬ p.pre.length + b.length + p.suf.length ≤ c.bufSize → r = { ok := false, left := inp, can := [] }) → r.ok = true →
      r.can.flatten = psWire p.pre p.suf b ∧ (psWire p.pre p.suf b).length ≤ c.bufSize := by
    intro b r inp h1 h2 hok
    by_cases hf : p.pre.length + b.length + p.suf.length ≤ c.bufSize
    · exact ⟨by simpa [psWire] using (h1 hf).2.2, by rw [psWire_length]; exact hf⟩
    · rw [h2 hf] at hok; cases hok
  cases h with
  | array ps bytes hr hc ha =>
    rw [C11_prefix_suffix_array c hv p hp false ps hr] at ha
    have hl := content_length ps hr
    have hn : totalLen ps ≠ 0 := by rw [← hl]; intro h; exact hc (List.length_eq_zero_iff.mp h)
    simp only [Bool.false_eq_true, if_false, hn] at ha
    split at ha
    · next hfit =>
      simp only [Option.some.injEq, Prod.mk.injEq, true_and] at ha
      exact ⟨ha.symm, by rw [psWire_length]; omega⟩
    · cases ha
  | one _ hok => exact mk item _ _ (C11_prefix_suffix c p item [] [] [] []).1 (C11_prefix_suffix c p item [] [] [] []).2.1 hok
  | two m1 m2 hok => exact mk (m1 ++ m2) _ _ (C11_prefix_suffix c p [] m1 m2 [] []).2.2.1 (C11_prefix_suffix c p [] m1 m2 [] []).2.2.2.1 hok
  | list ms hok => exact mk ms.flatten _ _ (C11_prefix_suffix c p [] [] [] ms []).2.2.2.2.1 (C11_prefix_suffix c p [] [] [] ms []).2.2.2.2.2 hok
  | heartbeat item bytes h0 hb' =>
    subst h0 hb'
    exact ⟨by simp [psPackHeartbeat, psWire], by rw [psWire_length]; simp; omega⟩

theorem psSends_stream {c : Cfg} (hv : c.Valid) {p : PsCfg} (hp : p.Valid c) (sent : List (Item × Bytes)) (hsent : ∀ x ∈ sent, PsSends c p x.1 x.2) :
    (sent.map (·.2)).flatten = ((sent.map (·.1)).map (psWire p.pre p.suf)).flatten ∧
    ∀ b ∈ sent.map (·.1), (psWire p.pre p.suf b).length ≤ c.bufSize := by
  constructor
  · rw [List.map_map]
    congr 1
    exact List.map_congr_left (fun x hx => ((hsent x hx).wire hv hp).1)
  · intro b hb
    obtain ⟨x, hx, rfl⟩ := List.mem_map.mp hb
    exact ((hsent x hx).wire hv hp).2

/-- C07. Whatever overloads packed the messages, wherever heartbeats were put, and however the stream (or any prefix of
it) is cut into reads: the application has received exactly the messages whose last byte has arrived, in order, and the
connection goes on reading. -/
theorem C07_prefix_suffix_delivery (c : Cfg) (hv : c.Valid) (p : PsCfg) (hp : p.Valid c) (raw : Bytes) (hraw : raw.length = c.bufSize)
    (stripped cwf : Bool) (sent : List (Item × Bytes)) (hsent : ∀ x ∈ sent, PsSends c p x.1 x.2)
    (hearly : ∀ x ∈ sent, NoEarlySuffix p.suf x.1)
    (chunks : List Bytes) (later : Bytes) (hstream : chunks.flatten ++ later = (sent.map (·.2)).flatten) :
    ∃ k, receive (psOps c p) cwf (Ps.init raw stripped) chunks = some k ∧
      k.log = (psArrived p.pre p.suf stripped (sent.map (·.1)) chunks.flatten.length).map .msg ∧ k.ph ≠ .stalled := by
  obtain ⟨hw, hi⟩ := psSends_stream hv hp sent hsent
  rw [hw] at hstream
  obtain ⟨fs, q, h1, h2, _⟩ := psFrames_items hp stripped _ (fun b hb => ⟨hi b hb, by
    obtain ⟨x, hx, rfl⟩ := List.mem_map.mp hb; exact hearly x hx⟩) _ _ hstream
  obtain ⟨k, hk, hinv⟩ := ps_receive hp stripped cwf raw hraw chunks
  unfold PsInv at hinv
  rw [h1] at hinv
  simp only at hinv
  refine ⟨k, hk, by rw [hinv.1, h2]; simp [msgs], ?_⟩
  obtain ⟨got, h, _⟩ := hinv.2.ph
  rw [h]; simp

/-- Non-vacuity of C07: prefix [1], suffix [2, 3]; a message that contains the beginning of the suffix, a heartbeat, a message. -/
def exPs : PsCfg := { pre := [1], suf := [2, 3] }
def exCfgPs : Cfg := { huge := false, bufSize := 8 }
example : exCfgPs.Valid := by decide
example : exPs.Valid exCfgPs := by unfold PsCfg.Valid; decide
example : PsSends exCfgPs exPs [2, 2, 4] [1, 2, 2, 4, 2, 3] ∧ PsSends exCfgPs exPs [] [1, 2, 3] ∧ PsSends exCfgPs exPs [7] [1, 7, 2, 3] :=
  ⟨PsSends.one [2, 2, 4] (by decide), PsSends.heartbeat _ _ rfl rfl, PsSends.two [] [7] (by decide)⟩
example : NoEarlySuffix exPs.suf [2, 2, 4] ∧ NoEarlySuffix exPs.suf [] := by
  refine ⟨?_, ?_⟩ <;> intro i hi
  · have : i = 0 ∨ i = 1 ∨ i = 2 := by simp at hi; omega
    rcases this with rfl | rfl | rfl <;> decide
  · simp at hi
example : (receive (psOps exCfgPs exPs) false (Ps.init (List.replicate 8 0) true) [[1, 2, 2], [4, 2], [3, 1, 2, 3], [1, 7], [2, 3]]).map Conn.log =
    some [.msg [2, 2, 4], .msg [7]] := by decide

/-- C08, full statement: false. A wrong prefix that arrives in the same read as a good message is not reported, the
connection just stops reading (an assert fails in debug builds). -/
theorem C08_wrong_prefix_stalls : (receive (psOps exCfgPs exPs) false (Ps.init (List.replicate 8 0) true) [[1, 7, 2, 3, 9, 9], [9, 9, 9]]).map (fun k => (k.log, k.ph)) =
    some ([.msg [7]], .stalled) := by decide

/-- C08: the same happens if the wrong prefix comes after a heartbeat, even in a read of its own, because a heartbeat
is only consumed once more data has arrived. -/
theorem C08_wrong_prefix_after_heartbeat_stalls : (receive (psOps exCfgPs exPs) false (Ps.init (List.replicate 8 0) true) [[1, 2, 3], [9, 9], [9]]).map (fun k => (k.log, k.ph)) =
    some ([], .stalled) := by decide

/-- C08 (partial; missing: malformed data that shares a read with the end of a good message, or follows a heartbeat,
where the claim is false, see above). After complete messages, the last of them not a heartbeat, malformed data that
arrives in later reads is reported, right after these messages were handed out. -/
theorem C08_malformed_reported_partial (c : Cfg) (hv : c.Valid) (p : PsCfg) (hp : p.Valid c) (raw : Bytes) (hraw : raw.length = c.bufSize)
    (stripped cwf : Bool) (sent : List (Item × Bytes)) (hsent : ∀ x ∈ sent, PsSends c p x.1 x.2)
    (hearly : ∀ x ∈ sent, NoEarlySuffix p.suf x.1) (hlast : (sent.map (·.1)).getLast? ≠ some [])
    (good bad : List Bytes) (hgood : good.flatten = (sent.map (·.2)).flatten) (hbad : PsMalformed p.pre p.suf c.bufSize bad.flatten) :
    ∃ k t, receive (psOps c p) cwf (Ps.init raw stripped) (good ++ bad) = some k ∧
      k.log = (psArrived p.pre p.suf stripped (sent.map (·.1)) good.flatten.length).map .msg ++ .unpackError :: t := by
  obtain ⟨hw, hi⟩ := psSends_stream hv hp sent hsent
  rw [hw] at hgood
  obtain ⟨fs, q, h1, h2, h3⟩ := psFrames_items hp stripped _ (fun b hb => ⟨hi b hb, by
    obtain ⟨x, hx, rfl⟩ := List.mem_map.mp hb; exact hearly x hx⟩) good.flatten [] (by simpa using hgood)
  have hq := h3 rfl hlast
  subst hq
  obtain ⟨k0, hk0, hinv⟩ := ps_receive hp stripped cwf raw hraw good
  unfold PsInv at hinv
  rw [h1] at hinv
  simp only at hinv
  have hinv' : PsInv c p stripped k0.log [] k0 := by
    unfold PsInv; rw [psFrames_wait psVerdict_nil]
    exact ⟨by simp [msgs, psVisible], hinv.2⟩
  obtain ⟨k, hk, hik⟩ := ps_feedAll hp (cwf := cwf) bad k0 [] hinv'
  unfold PsInv at hik
  rw [List.nil_append, psFrames_bad (psMalformed_verdict hp hbad)] at hik
  obtain ⟨t, ht⟩ := hik.1 rfl
  refine ⟨k, t, by rw [receive_append, hk0]; exact hk, ?_⟩
  rw [ht, hinv.1, h2]; simp [msgs]

/-- Non-vacuity of the partial C08. -/
example : PsMalformed exPs.pre exPs.suf exCfgPs.bufSize [9, 9] := Or.inl (by decide)
example : PsMalformed exPs.pre exPs.suf exCfgPs.bufSize [1, 0, 0, 0, 0, 0, 2, 2, 3] := Or.inr ⟨by decide, by
  intro i hi
  have : i = 0 ∨ i = 1 ∨ i = 2 ∨ i = 3 ∨ i = 4 ∨ i = 5 := by simp [exPs, exCfgPs] at hi; omega
  rcases this with rfl | rfl | rfl | rfl | rfl | rfl <;> decide⟩

/-- C08: for every byte stream and segmentation there is no out-of-bounds access, no underflow, no endless loop and no failing assert inside the unpacker. -/
theorem C08_unpacker_safe (c : Cfg) (p : PsCfg) (hp : p.Valid c) (raw : Bytes) (hraw : raw.length = c.bufSize) (stripped cwf : Bool)
    (chunks : List Bytes) : ∃ k, receive (psOps c p) cwf (Ps.init raw stripped) chunks = some k := by
  obtain ⟨k, hk, _⟩ := ps_receive hp stripped cwf raw hraw chunks
  exact ⟨k, hk⟩

end StAsio
