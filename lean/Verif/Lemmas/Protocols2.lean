import Verif.Lemmas.Protocols
import Verif.Lemmas.Flexible
import Verif.Lemmas.Simple
import Verif.Lemmas.PrefixSuffix
import Verif.Props.C10_C12_Packer
set_option autoImplicit false
namespace StAsio

theorem msgs_inj {a b : List Bytes} (h : msgs a = msgs b) : a = b := by
  induction a generalizing b with
  | nil => cases b with
    | nil => rfl
    | cons _ _ => simp [msgs] at h
  | cons x a ih => cases b with
    | nil => simp [msgs] at h
    | cons y b =>
      simp only [msgs, List.map_cons, List.cons.injEq, RxEvent.msg.injEq] at h
      rw [h.1, ih h.2]

theorem startRead_log {σ : Type} {o : UnpackerOps σ} {u : σ} {log : List RxEvent} {k : Conn σ} (h : startRead o u log = some k) : k.log = log := by
  simp only [startRead, Option.bind_eq_bind] at h
  rw [Option.bind_eq_some_iff] at h
  obtain ⟨⟨u1, cap⟩, h1, h⟩ := h
  simp only at h
  split at h
  · cases h; rfl
  · rw [Option.bind_eq_some_iff] at h
    obtain ⟨⟨u2, want⟩, h2, h⟩ := h
    simp only at h
    split at h <;> (cases h; rfl)

theorem recvHandler_log {σ : Type} {o : UnpackerOps σ} {k k' : Conn σ} {got : Nat} (h : recvHandler o k got = some k') : ∃ t, k'.log = k.log ++ t := by
  simp only [recvHandler, Option.bind_eq_bind] at h
  rw [Option.bind_eq_some_iff] at h
  obtain ⟨⟨u, ms, ok⟩, h1, h⟩ := h
  simp only at h
  split at h <;> (have := startRead_log h; rw [this]; exact ⟨_, by first | rfl | rw [List.append_assoc]⟩)

/-- The log only grows. -/
theorem readSome_log {σ : Type} {o : UnpackerOps σ} {cwf : Bool} {k k' : Conn σ} {cap got : Nat} {d : Bytes}
    (h : readSome o cwf k cap got d = some k') : ∃ t, k'.log = k.log ++ t := by
  simp only [readSome, Option.bind_eq_bind] at h
  rw [Option.bind_eq_some_iff] at h
  obtain ⟨u, h1, h⟩ := h
  split at h
  · split at h
    · rw [Option.bind_eq_some_iff] at h
      obtain ⟨⟨u1, w⟩, h2, h⟩ := h
      obtain ⟨t, ht⟩ := recvHandler_log h
      exact ⟨t, ht⟩
    · obtain ⟨t, ht⟩ := recvHandler_log h
      exact ⟨t, ht⟩
  · rw [Option.bind_eq_some_iff] at h
    obtain ⟨⟨u1, w⟩, h2, h⟩ := h
    simp only at h
    split at h
    · obtain ⟨t, ht⟩ := recvHandler_log h
      exact ⟨t, ht⟩
    · cases h; exact ⟨[], by simp⟩

/-- An unpacker that behaves like a decoder, which finds the right messages, does its work. -/
theorem reads_of_simulates {K : Codec} {cwf : Bool} {dec : Decoder} {R : Conn K.σ → Bytes → Prop} {w : Item → Bytes} {Ok : Item → Prop}
    {Shown : List Item → Nat → List Bytes → Prop} (hs : Simulates K.ops cwf dec R) (hi : Incremental dec)
    (hst : ∃ k, startRead K.ops K.u0 [] = some k ∧ k.log = [] ∧ R k [])
    (hdec : ∀ items : List Item, (∀ b ∈ items, Ok b) → ∀ s later, s ++ later = (items.map w).flatten → ∃ ms p, dec s = (ms, some p) ∧ Shown items s.length ms)
    (hc : ∀ items n ms, Shown items n ms → ms.length ≤ n) :
    K.Reads cwf w Ok Shown (fun s k => ∃ ms p, dec s = (ms, some p) ∧ k.log = msgs ms ∧ R k p) where
  start := by
    obtain ⟨k, h1, h2, h3⟩ := hst
    exact ⟨k, h1, h2, [], [], hi.nil, by rw [h2]; rfl, h3⟩
  reading := by
    rintro s k ⟨ms, p, h1, h2, h3⟩
    exact hs.reading k p h3
  step := by
    rintro s k cap got want d ⟨ms, p, h1, h2, h3⟩ hph hne hw hcap items hok later hl
    obtain ⟨k', hk', hm⟩ := hs.step k p cap got want d h3 hph hne hw hcap
    obtain ⟨ms2, p2, hd, _⟩ := hdec items hok (s ++ d) later hl
    have hmore := hi.more s d ms p h1
    rw [hd] at hmore
    cases hdd : dec (p ++ d) with
    | mk ms1 t =>
      rw [hdd] at hmore hm
      simp only [Prod.mk.injEq] at hmore
      obtain ⟨e1, e2⟩ := hmore
      subst e2
      simp only at hm
      exact ⟨k', ms1, hk', hm.1, ms2, p2, hd, by rw [hm.1, h2, e1]; simp [msgs], hm.2⟩
  shown := by
    rintro s k ⟨ms, p, h1, h2, h3⟩ items hok later hl ms' hm
    obtain ⟨ms2, p2, hd, hsh⟩ := hdec items hok s later hl
    rw [h1] at hd
    simp only [Prod.mk.injEq] at hd
    rw [h2] at hm
    rw [← msgs_inj hm, hd.1]
    exact hsh
  count := hc

/-- What a message must look like to get through. -/
def Proto.Ok : Proto → Item → Prop
  | .plain c _, b | .flexible c _, b | .nonCopy c, b => c.headLen + b.length ≤ c.bufSize ∧ c.headLen + b.length < 256 ^ c.headLen
  | .fixed _ len, b => b.length = len
  | .prefixSuffix c p _, b => (psWire p.pre p.suf b).length ≤ c.bufSize ∧ NoEarlySuffix p.suf b
  | .stream _, _ => True

theorem Proto.seen_le (P : Proto) (b : Item) : (P.seen b).length ≤ (P.wire b).length := by
  by_cases hb : b = []
  · simp [Proto.seen, hb]
  · have := List.length_pos_iff.mpr hb
    cases P <;> simp only [Proto.seen, Proto.wire, hb, if_false, List.length_singleton, wire_length, psWire_length, id] <;> omega

theorem Proto.inBytes_le (P : Proto) (items : List Item) (n : Nat) : (P.inBytes items n).length ≤ n := by
  induction items generalizing n with
  | nil => simp [Proto.inBytes]
  | cons b rest ih =>
    simp only [Proto.inBytes]
    split
    · simp
    · have := ih (n - (P.wire b).length)
      have := P.seen_le b
      rw [List.length_append]
      omega

theorem nonempty_count (ms : List Bytes) (h : ∀ m ∈ ms, m ≠ []) : ms.length ≤ ms.flatten.length :=
  flatten_length_ge ms (fun m hm => List.length_pos_iff.mpr (h m hm))

theorem Proto.count (P : Proto) (items : List Item) (n : Nat) (ms : List Bytes) (h : P.Shown items n ms) : ms.length ≤ n := by
  cases P with
  | stream c =>
    simp only [Proto.Shown] at h
    have := nonempty_count ms h.2
    rw [h.1, List.length_take] at this
    omega
  | _ => simp only [Proto.Shown] at h; subst h; exact Proto.inBytes_le _ _ _

theorem Proto.inBytes_arrived (P : Proto) (hl : Nat) (st : Bool) (hw : P.wire = StAsio.wire hl)
    (hsn : ∀ b, P.seen b = if b = [] then [] else [if st then b else StAsio.wire hl b]) (items : List Item) (n : Nat) : P.inBytes items n = arrived hl st items n := by
  induction items generalizing n with
  | nil => rfl
  | cons b rest ih => simp only [Proto.inBytes, arrived, hw, wire_length, hsn, ih]

theorem Proto.inBytes_ps (c : Cfg) (p : PsCfg) (st : Bool) (items : List Item) (n : Nat) :
    (Proto.prefixSuffix c p st).inBytes items n = psArrived p.pre p.suf st items n := by
  induction items generalizing n with
  | nil => rfl
  | cons b rest ih => simp only [Proto.inBytes, psArrived, Proto.wire, Proto.seen, ih]

theorem Proto.inBytes_fixed (c : Cfg) {len : Nat} (h0 : 0 < len) (items : List Item) (h : ∀ b ∈ items, b.length = len) (n : Nat) :
    (Proto.fixed c len).inBytes items n = items.take (n / len) := by
  induction items generalizing n with
  | nil => simp [Proto.inBytes]
  | cons b rest ih =>
    have hb := h b (by simp)
    have hne : b ≠ [] := by intro hb'; subst hb'; simp at hb; omega
    simp only [Proto.inBytes, Proto.wire, id, hb, Proto.seen, hne, if_false]
    split
    · next hn => rw [Nat.div_eq_of_lt hn]; simp
    · next hn =>
      rw [ih (fun x hx => h x (by simp [hx])), Nat.div_eq_sub_div h0 (by omega : len ≤ n)]
      rfl

theorem frames_shown (P : Proto) {c : Cfg} (st : Bool) (hw : P.wire = StAsio.wire c.headLen)
    (hsn : ∀ b, P.seen b = if b = [] then [] else [if st then b else StAsio.wire c.headLen b])
    (items : List Item) (hok : ∀ b ∈ items, c.headLen + b.length ≤ c.bufSize ∧ c.headLen + b.length < 256 ^ c.headLen)
    (s later : Bytes) (h : s ++ later = (items.map P.wire).flatten) :
    ∃ ms p, frameDec c.headLen c.bufSize st s = (ms, some p) ∧ ms = P.inBytes items s.length := by
  rw [hw] at h
  obtain ⟨h1, r, h2⟩ := frames_arrived c.headLen_pos st items hok s later h
  exact ⟨arrived c.headLen st items s.length, r, by simp only [frameDec, h1, h2], by rw [Proto.inBytes_arrived P c.headLen st hw hsn]⟩

theorem ps_reads {c : Cfg} {p : PsCfg} (hp : p.Valid c) (st nd cwf : Bool) (junk : Nat → Bytes) (raw : Bytes) (hraw : raw.length = c.bufSize) :
    ((Proto.prefixSuffix c p st).codec nd junk raw).Reads cwf (Proto.prefixSuffix c p st).wire (Proto.prefixSuffix c p st).Ok (Proto.prefixSuffix c p st).Shown
      (fun s k => ∃ fs q, psFrames c p s = (fs, .incomplete q) ∧ k.log = msgs (psVisible p st fs) ∧ PsRel c p st k q) where
  start := by
    have hb0 : 0 < c.bufSize := by have := hp.2; omega
    obtain ⟨k0, hk0, hlog, hw, _⟩ := ps_start hp (u := Ps.init raw st) (q := []) hraw (by simpa using hb0) (by simp) (Or.inl rfl) rfl []
    exact ⟨k0, hk0, hlog, [], [], psFrames_wait psVerdict_nil, by rw [hlog]; rfl, hw psVerdict_nil⟩
  reading := by
    rintro s k ⟨fs, q, h1, h2, h3⟩
    obtain ⟨got, hph, hgot⟩ := h3.ph
    have := h3.len
    exact ⟨_, _, _, hph, by omega, by omega⟩
  step := by
    rintro s k cap got want d ⟨fs, q, h1, h2, h3⟩ hph hne hw hcap items hok later hl
    obtain ⟨k', hk', hst⟩ := ps_step hp (cwf := cwf) h3 hph hcap
    obtain ⟨fs2, q2, hd, _, _⟩ := psFrames_items hp st items hok (s ++ d) later hl
    have hmore := psFrames_append hp s d
    rw [h1] at hmore
    simp only at hmore
    rw [hd] at hmore
    unfold PsStep at hst
    cases hdd : psFrames c p (q ++ d) with
    | mk fs1 t =>
      rw [hdd] at hmore hst
      simp only [Prod.mk.injEq] at hmore
      obtain ⟨e1, e2⟩ := hmore
      subst e2
      simp only at hst
      exact ⟨k', psVisible p st fs1, hk', hst.1, fs2, q2, hd, by rw [hst.1, h2, e1, psVisible_append]; simp [msgs], hst.2⟩
  shown := by
    rintro s k ⟨fs, q, h1, h2, h3⟩ items hok later hl ms' hm
    obtain ⟨fs2, q2, hd, hsh, _⟩ := psFrames_items hp st items hok s later hl
    rw [h1] at hd
    simp only [Prod.mk.injEq] at hd
    rw [h2] at hm
    simp only [Proto.Shown, Proto.inBytes_ps]
    rw [← msgs_inj hm, hd.1]
    exact hsh
  count := Proto.count _

theorem stream_reads {c : Cfg} (h0 : 0 < c.bufSize) (nd cwf : Bool) (junk : Nat → Bytes) (raw : Bytes) (hraw : raw.length = c.bufSize) :
    ((Proto.stream c).codec nd junk raw).Reads cwf (Proto.stream c).wire (Proto.stream c).Ok (Proto.stream c).Shown (fun s k => StreamInv c k s) where
  start := by
    obtain ⟨k, h1, h2⟩ := stream_start c h0 raw hraw
    obtain ⟨ms, h3, h4, h5⟩ := h2.log
    refine ⟨k, h1, ?_, h2⟩
    have : ms = [] := by
      cases ms with
      | nil => rfl
      | cons m ms => simp only [List.flatten_cons, List.append_eq_nil_iff] at h4; exact absurd h4.1 (h5 m (by simp)).1
    rw [h3, this]; rfl
  reading := by
    intro s k h
    exact ⟨_, _, _, h.ph, h0, h0⟩
  step := by
    intro s k cap got want d h hph hne hw hcap items hok later hl
    have hph' := h.ph
    rw [hph] at hph'
    simp only [RxPhase.reading.injEq] at hph'
    obtain ⟨rfl, rfl, rfl⟩ := hph'
    obtain ⟨k', h1, h2⟩ := stream_read c h0 cwf k s d h hne hw
    obtain ⟨ms, m1, m2, m3⟩ := h.log
    obtain ⟨ms', n1, n2, n3⟩ := h2.log
    obtain ⟨t, ht⟩ := readSome_log h1
    obtain ⟨ms2, hms2⟩ : ∃ ms2, t = msgs ms2 := by
      rw [m1, n1] at ht
      refine ⟨ms'.drop ms.length, ?_⟩
      have := congrArg (List.drop (msgs ms).length) ht
      rw [List.drop_left] at this
      rw [← this, msgs, msgs, msgs, List.length_map, List.map_drop]
    exact ⟨k', ms2, h1, by rw [ht, hms2], h2⟩
  shown := by
    rintro s k h items hok later hl ms' hm
    obtain ⟨ms, m1, m2, m3⟩ := h.log
    rw [m1] at hm
    have := msgs_inj hm
    subst this
    simp only [Proto.wire, List.map_id] at hl
    refine ⟨?_, fun m hm => (m3 m hm).1⟩
    rw [m2, ← hl]
    simp
  count := Proto.count _

/-- Every unpacker of the library does its work. -/
theorem Proto.reads (P : Proto) (hv : P.Valid) (nd cwf : Bool) (junk : Nat → Bytes) (hj : ∀ n, (junk n).length = n) (raw : Bytes) (hraw : raw.length = P.rawLen) :
    ∃ Inv, (P.codec nd junk raw).Reads cwf P.wire P.Ok P.Shown Inv := by
  cases P with
  | plain c st =>
    exact ⟨_, reads_of_simulates (K := (Proto.plain c st).codec nd junk raw) (unpacker_simulates c hv.1 st cwf) (frameDec_incremental c.headLen c.bufSize c.headLen_pos st)
      (unpacker_start c hv.1 raw hraw st) (fun items hok s later h => frames_shown _ st rfl (fun _ => rfl) items hok s later h) (Proto.count _)⟩
  | flexible c st =>
    exact ⟨_, reads_of_simulates (K := (Proto.flexible c st).codec nd junk raw) (flex_simulates c hv.1 junk hj st cwf) (frameDec_incremental c.headLen c.bufSize c.headLen_pos st)
      (flex_start c hv.1 junk raw hraw st) (fun items hok s later h => frames_shown _ st rfl (fun _ => rfl) items hok s later h) (Proto.count _)⟩
  | nonCopy c =>
    exact ⟨_, reads_of_simulates (K := (Proto.nonCopy c).codec nd junk raw) (nonCopy_simulates c hv.1 junk hj cwf) (frameDec_incremental c.headLen c.bufSize c.headLen_pos true)
      (nonCopy_start0 c junk raw hraw []) (fun items hok s later h => frames_shown _ true rfl (fun _ => rfl) items hok s later h) (Proto.count _)⟩
  | fixed c len =>
    refine ⟨_, reads_of_simulates (K := (Proto.fixed c len).codec nd junk raw) (fixed_simulates hv.2 junk hj cwf) (fixedDec_incremental len hv.2)
      (fixed_start hv.2 junk hj raw []) (fun items hok s later h => ?_) (Proto.count _)⟩
    refine ⟨_, _, rfl, ?_⟩
    simp only [Proto.Shown]
    rw [Proto.inBytes_fixed c hv.2 items hok]
    simp only [Proto.wire, List.map_id] at h
    exact pieces_messages hv.2 items hok s later h
  | prefixSuffix c p st => exact ⟨_, ps_reads hv.2 st nd cwf junk raw hraw⟩
  | stream c =>
    have h0 : 0 < c.bufSize := by have h1 : c.Valid := hv; have := h1.1; have := c.headLen_pos; omega
    exact ⟨_, stream_reads h0 nd cwf junk raw hraw⟩

theorem SendCall.flPack_spec {c : Cfg} (hv : c.Valid) {nd : Bool} (call : SendCall) (hh : ∀ ps, call = .array ps → Readable ps) (hb : call ≠ .heartbeat) :
    ∃ r, call.flPack c nd = some r ∧
      match r with
      | none => True
      | some bs => (call.single = true ∧ bs.flatten = []) ∨ bs.flatten = call.body := by
  cases call with
  | array ps =>
    have h := hh ps rfl
    have hp := packArray_spec c hv true ps h
    simp only [if_true] at hp
    rw [SendCall.body_array]
    simp only [SendCall.flPack, SendCall.single, flPackArray]
    rw [hp]
    split
    · exact ⟨_, rfl, Or.inl ⟨trivial, rfl⟩⟩
    · split
      · exact ⟨_, rfl, Or.inl ⟨trivial, rfl⟩⟩
      · exact ⟨_, rfl, Or.inr (by simp)⟩
  | one m => exact ⟨_, rfl, Or.inr (by simp [flPackOne, SendCall.body])⟩
  | two m1 m2 => exact ⟨_, rfl, Or.inr (by simp [flPackTwo, SendCall.body])⟩
  | list ms => exact ⟨_, rfl, Or.inr (by simp [flPackList, SendCall.body])⟩
  | heartbeat => exact absurd rfl hb

theorem emplaceNonEmpty_flatten (s : Bytes) (can : List Bytes) : (emplaceNonEmpty s can).flatten = can.flatten ++ s := by
  unfold emplaceNonEmpty
  split
  · next h => simp [h]
  · simp

theorem SendCall.psPack_spec {c : Cfg} (hv : c.Valid) {p : PsCfg} (hp : p.Valid c) (call : SendCall) (hh : ∀ ps, call = .array ps → Readable ps) :
    ∃ r, call.psPack c p = some r ∧
      match r with
      | none => True
      | some bs => (call.single = true ∧ bs.flatten = []) ∨ (bs.flatten = psWire p.pre p.suf call.body ∧ (psWire p.pre p.suf call.body).length ≤ c.bufSize) := by
  have hp2 := hp.2
  simp only [psWire_length]
  cases call with
  | array ps =>
    have h := hh ps rfl
    have hs := C11_prefix_suffix_array c hv p hp false ps h
    simp only [Bool.false_eq_true, if_false] at hs
    have hlen := content_length ps h
    rw [SendCall.body_array]
    simp only [SendCall.psPack, SendCall.single]
    rw [hs]
    split
    · by_cases h0 : totalLen ps = 0
      · exact ⟨_, rfl, Or.inl ⟨trivial, by simp [h0]⟩⟩
      · exact ⟨_, rfl, Or.inr ⟨by simp [h0, psWire], by omega⟩⟩
    · exact ⟨_, rfl, Or.inl ⟨trivial, rfl⟩⟩
  | one m =>
    by_cases hm : c.bufSize < p.pre.length + m.length + p.suf.length
    · exact ⟨none, by simp [SendCall.psPack, psPackOne, hm], trivial⟩
    · refine ⟨some (emplaceNonEmpty p.suf (emplaceNonEmpty p.pre [] ++ [m])), by simp [SendCall.psPack, psPackOne, hm], Or.inr ⟨?_, ?_⟩⟩
      · simp [emplaceNonEmpty_flatten, psWire, SendCall.body]
      · simp only [SendCall.body]; omega
  | two m1 m2 =>
    by_cases hm : c.bufSize < p.pre.length + m1.length + m2.length + p.suf.length
    · exact ⟨none, by simp [SendCall.psPack, psPackTwo, hm], trivial⟩
    · refine ⟨some (emplaceNonEmpty p.suf (emplaceNonEmpty p.pre [] ++ [m1] ++ [m2])), by simp [SendCall.psPack, psPackTwo, hm], Or.inr ⟨?_, ?_⟩⟩
      · simp [emplaceNonEmpty_flatten, psWire, SendCall.body]
      · simp only [SendCall.body, List.length_append]; omega
  | list ms =>
    by_cases hm : c.bufSize < p.pre.length + p.suf.length + sizeInByte ms
    · exact ⟨none, by simp [SendCall.psPack, psPackList, hm], trivial⟩
    · refine ⟨some (emplaceNonEmpty p.suf (emplaceNonEmpty p.pre [] ++ ms)), by simp [SendCall.psPack, psPackList, hm], Or.inr ⟨?_, ?_⟩⟩
      · simp [emplaceNonEmpty_flatten, psWire, SendCall.body]
      · rw [sizeInByte_eq] at hm; simp only [SendCall.body]; omega
  | heartbeat => exact ⟨_, rfl, Or.inr ⟨by simp [psPackHeartbeat, psWire, SendCall.body], by simp only [SendCall.body, List.length_nil]; omega⟩⟩

/-- Every packer of the library does its work. -/
theorem Proto.packs (P : Proto) (hv : P.Valid) (nd : Bool) (junk : Nat → Bytes) (raw : Bytes) : (P.codec nd junk raw).Packs P.wire P.Ok P.Sendable := by
  intro call hc
  cases P with
  | plain c st => exact SendCall.pack_spec hv.1 hv.2 call hc.1
  | flexible c st => exact SendCall.pack_spec hv.1 hv.2 call hc.1
  | nonCopy c => exact SendCall.pack_spec hv.1 hv.2 call hc.1
  | fixed c len =>
    obtain ⟨r, h1, h2⟩ := SendCall.flPack_spec hv.1 (nd := nd) call hc.1 hc.2.1
    refine ⟨r, h1, ?_⟩
    cases r with
    | none => trivial
    | some bs =>
      rcases h2 with h2 | h2
      · exact Or.inl h2
      · exact Or.inr ⟨h2, hc.2.2⟩
  | prefixSuffix c p st =>
    obtain ⟨r, h1, h2⟩ := SendCall.psPack_spec hv.1 hv.2 call hc.1
    refine ⟨r, h1, ?_⟩
    cases r with
    | none => trivial
    | some bs =>
      rcases h2 with h2 | h2
      · exact Or.inl h2
      · exact Or.inr ⟨h2.1, h2.2, hc.2⟩
  | stream c =>
    obtain ⟨r, h1, h2⟩ := SendCall.flPack_spec hv (nd := nd) call hc.1 hc.2
    refine ⟨r, h1, ?_⟩
    cases r with
    | none => trivial
    | some bs =>
      rcases h2 with h2 | h2
      · exact Or.inl h2
      · exact Or.inr ⟨h2, trivial⟩

theorem Proto.inBytes_prefix (P : Proto) (items : List Item) (n : Nat) : P.inBytes items n <+: items.flatMap P.seen := by
  induction items generalizing n with
  | nil => exact List.prefix_refl _
  | cons b rest ih =>
    simp only [Proto.inBytes]
    split
    · exact List.nil_prefix
    · rw [List.flatMap_cons]
      exact List.prefix_append_right_inj _ |>.mpr (ih _)

theorem Proto.inBytes_all (P : Proto) (items : List Item) : P.inBytes items (items.map P.wire).flatten.length = items.flatMap P.seen := by
  induction items with
  | nil => rfl
  | cons b rest ih =>
    simp only [Proto.inBytes, List.map_cons, List.flatten_cons, List.length_append]
    rw [if_neg (by omega), Nat.add_sub_cancel_left, ih, List.flatMap_cons]

theorem Proto.shown_all (P : Proto) {items : List Item} {ms : List Bytes} (h : P.Shown items (items.map P.wire).flatten.length ms) : P.Everything items ms := by
  cases P with
  | stream c =>
    simp only [Proto.Shown, Proto.Everything, Proto.wire, List.map_id] at h ⊢
    rw [List.take_length] at h
    exact h
  | _ => simp only [Proto.Shown, Proto.Everything] at h ⊢; rw [h]; exact Proto.inBytes_all _ _

theorem Proto.shown_prefix (P : Proto) {items : List Item} {n : Nat} {ms rest : List Bytes} (h : P.Shown items n (ms ++ rest)) : P.Beginning items ms := by
  cases P with
  | stream c =>
    simp only [Proto.Shown, Proto.Beginning, List.flatten_append] at h ⊢
    exact List.IsPrefix.trans ⟨rest.flatten, h.1⟩ (List.take_prefix _ _)
  | _ =>
    simp only [Proto.Shown, Proto.Beginning] at h ⊢
    exact List.IsPrefix.trans ⟨rest, h⟩ (Proto.inBytes_prefix _ _ _)

end StAsio
