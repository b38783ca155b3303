import Verif.Props.C101_Dump
import Verif.Props.C07_C08_PrefixSuffix
/-! C101 for the prefix-suffix unpacker over whole streams: the log is carried along with the reception of Lemmas/PrefixSuffix.lean. -/
set_option autoImplicit false
namespace StAsio

/-- The unpacker together with what is logged. -/
abbrev psDumpOps (c : Cfg) (p : PsCfg) : UnpackerOps (Ps × List (List Char)) := dumpOps (psOps c p) (fun _ _ v => v.dump)

/-- What the log shows after the bytes `s`: nothing as long as they can be unpacked, or if reception has stopped without an error; otherwise first the bytes from the malformed ones on that had
arrived when it was noticed. -/
def PsDumpLog (c : Cfg) (p : PsCfg) (s : Bytes) (k : Conn Ps) (l : List (List Char)) : Prop :=
  l.length = k.log.countP (· == .unpackError) ∧
  match (psFrames c p s).2 with
  | .incomplete _ => l = []
  | .bad r => (l = [] ∧ k.ph = .stalled) ∨ ∃ n r' t, l = dumpOf n r' :: t ∧ r' <+: r ∧ r' ≠ []

theorem psFrames_none {c : Cfg} {p : PsCfg} {s q : Bytes} (h : psFrames c p s = ([], .bad q)) : q = s := by
  rw [psFrames] at h
  split at h
  · cases h
  · cases h; rfl
  · split at h
    · cases h
    · cases h

theorem countP_msgs (ms : List Bytes) : (msgs ms).countP (· == .unpackError) = 0 := by
  rw [List.countP_eq_zero]
  intro x hx
  simp only [msgs, List.mem_map] at hx
  obtain ⟨m, _, rfl⟩ := hx
  simp

/-- One read. -/
theorem psDump_read {c : Cfg} {p : PsCfg} {st cwf : Bool} {k k' : Conn Ps} {q d : Bytes} {cap got want : Nat} {l : List (List Char)}
    (hR : PsRel c p st k q) (hph : k.ph = .reading cap got want) (hd : d ≠ []) (hdc : got + d.length ≤ cap)
    (hr : readSome (psOps c p) cwf k cap got d = some k') :
    ∃ l', readSome (psDumpOps c p) cwf (k.withLog l) cap got d = some (k'.withLog (l ++ l')) ∧
      ((l' = [] ∧ ∃ ms, k'.log = k.log ++ msgs ms) ∨ ((∃ n, l' = [dumpOf n (q ++ d)]) ∧ ∃ ms, k'.log = k.log ++ msgs ms ++ [.unpackError])) := by
  refine readSome_dump (dump := fun _ _ v => v.dump) hr ?_
  intro u0 u1 hw hu u2 ms hp
  obtain ⟨g, hph', hg⟩ := hR.ph
  rw [hph] at hph'
  simp only [RxPhase.reading.injEq] at hph'
  obtain ⟨rfl, rfl, rfl⟩ := hph'
  -- the buffer after the read
  have hraw := hR.raw
  have hdat := hR.data
  obtain ⟨u, ph, log⟩ := k
  simp only [psOps, Ps.write, Option.bind_eq_bind, Option.bind_eq_some_iff] at hw
  obtain ⟨raw', hw, e0⟩ := hw
  cases e0
  have hwt := writeAt_take hw
  simp only at hg hraw hdat hdc
  have h1 : u1.raw = raw' ∧ u1.remain = u.remain := by
    rcases hu with rfl | ⟨w, hc⟩
    · exact ⟨rfl, rfl⟩
    · simp only [psOps, Ps.cond, Option.bind_eq_bind] at hc
      split at hc
      · cases hc
      · simp only [Option.bind_eq_some_iff] at hc
        obtain ⟨⟨cur, ret⟩, _, hc⟩ := hc
        cases hc; exact ⟨rfl, rfl⟩
  have htake : raw'.take (u1.remain + (got + d.length)) = q ++ d := by
    rw [h1.2, ← Nat.add_assoc, hwt.2, hg, hdat]
  have hdl : 0 < d.length := List.length_pos_iff.mpr hd
  rcases (C101_prefix_suffix c p u1 u2 (got + d.length) ms (by rw [h1.1, hwt.1, hraw]) hp).2 with ⟨h0, _⟩ | _
  · omega
  · obtain ⟨remain', hrem, hrr⟩ : ∃ r, u2.remain = r ∧ u2.raw = raw' ∧ r = u1.remain + (got + d.length) := by
      simp only [psOps, Ps.parse] at hp
      split at hp
      · cases hp
      · simp only [Option.bind_eq_bind, Option.bind_eq_some_iff] at hp
        obtain ⟨⟨pos, cur, remain, ms'⟩, hl, h⟩ := hp
        simp only at h
        split at h
        · next hp0 =>
          cases h
          exact ⟨_, rfl, h1.1, ((Ps.loop_pos _ _ _ _ _ _ _ _ _ hl).2 hp0).1⟩
        · split at h
          · simp only [Option.bind_eq_some_iff] at h
            obtain ⟨_, _, _, _, h⟩ := h
            cases h
          · cases h
    have hl' : u.remain ≤ u.raw.length := by omega
    refine ⟨[dumpOf (if curMsgLen u2.cur = 2 ^ 64 - 1 then 0 else curMsgLen u2.cur) (q ++ d)], ?_, _, rfl⟩
    simp only [Ps.dump, hrem, hrr.1, hrr.2]
    rw [dumpLeft_eq (by rw [hwt.1, h1.2]; omega), htake, if_pos (by omega)]

theorem psDump_step {c : Cfg} {p : PsCfg} (hp : p.Valid c) {st cwf : Bool} {s d : Bytes} {k k' : Conn Ps} {q : Bytes} {cap got want : Nat} {l : List (List Char)}
    (hi : PsInv c p st [] s k) (hR : PsRel c p st k q) (hl : PsDumpLog c p s k l) (hph : k.ph = .reading cap got want) (hd : d ≠ []) (hdc : got + d.length ≤ cap)
    (hr : readSome (psOps c p) cwf k cap got d = some k') :
    ∃ l', readSome (psDumpOps c p) cwf (k.withLog l) cap got d = some (k'.withLog l') ∧ PsDumpLog c p (s ++ d) k' l' := by
  have hcount : ∀ l', ((l' = [] ∧ ∃ ms, k'.log = k.log ++ msgs ms) ∨ (∃ n x, l' = [dumpOf n x]) ∧ ∃ ms, k'.log = k.log ++ msgs ms ++ [.unpackError]) →
      (l ++ l').length = k'.log.countP (· == .unpackError) := by
    rintro l' (⟨rfl, ms, h⟩ | ⟨⟨n, x, rfl⟩, ms, h⟩)
    · rw [h, List.countP_append, countP_msgs, ← hl.1]; simp
    · rw [h, List.countP_append, List.countP_append, countP_msgs, ← hl.1]; simp
  have ha := psFrames_append hp s d
  have hl2 := hl.2
  unfold PsInv at hi
  generalize hF : psFrames c p s = F at hi ha hl2
  obtain ⟨fs, q0 | q0⟩ := F
  · simp only at hi ha hl2
    subst hl2
    have hR0 := hi.2
    obtain ⟨k1, hk1, hst⟩ := ps_step hp (cwf := cwf) hR0 hph hdc
    rw [hr] at hk1; cases hk1
    obtain ⟨l', h1, h2⟩ := psDump_read (l := []) hR0 hph hd hdc hr
    refine ⟨[] ++ l', h1, hcount l' (by rcases h2 with h2 | ⟨⟨n, e⟩, h3⟩; exact Or.inl h2; exact Or.inr ⟨⟨n, _, e⟩, h3⟩), ?_⟩
    rw [ha]
    unfold PsStep at hst
    generalize hG : psFrames c p (q0 ++ d) = G at hst
    obtain ⟨fs', q' | q'⟩ := G
    · simp only at hst ⊢
      rcases h2 with h2 | ⟨_, ms, h2⟩
      · rw [h2.1]; rfl
      · exact absurd (hst.1.symm.trans h2) error_ne
    · simp only at hst ⊢
      rcases hst with ⟨rfl, h3, _⟩ | ⟨_, h3, h4⟩
      · have e := psFrames_none hG
        subst e
        rcases h2 with ⟨_, ms, h2⟩ | ⟨⟨n, h2⟩, _⟩
        · refine (error_ne (l := k.log) (ms := ms) (ms' := []) ?_).elim
          rw [← h2, h3]; simp [msgs]
        · refine Or.inr ⟨n, _, [], by rw [h2]; rfl, List.prefix_refl _, ?_⟩
          intro e
          exact hd (List.append_eq_nil_iff.mp e).2
      · rcases h2 with h2 | ⟨_, ms, h2⟩
        · exact Or.inl ⟨by rw [h2.1]; rfl, h4⟩
        · exact absurd (h3.symm.trans h2) error_ne
  · simp only at ha hl2
    obtain ⟨l', h1, h2⟩ := psDump_read (l := l) hR hph hd hdc hr
    refine ⟨l ++ l', h1, hcount l' (by rcases h2 with h2 | ⟨⟨n, e⟩, h3⟩; exact Or.inl h2; exact Or.inr ⟨⟨n, _, e⟩, h3⟩), ?_⟩
    rw [ha]
    simp only
    rcases hl2 with ⟨_, h3⟩ | ⟨n, r', t, h3, h4, h5⟩
    · rw [hph] at h3; cases h3
    · exact Or.inr ⟨n, r', t ++ l', by rw [h3]; rfl, h4.trans (List.prefix_append _ _), h5⟩

theorem psDump_feedN {c : Cfg} {p : PsCfg} (hp : p.Valid c) {st cwf : Bool} : ∀ (fuel : Nat) (k : Conn Ps) (s d : Bytes) (l : List (List Char)),
    d.length ≤ fuel → PsInv c p st [] s k → PsDumpLog c p s k l →
    ∃ k' l', feedN (psOps c p) cwf fuel k d = some k' ∧ feedN (psDumpOps c p) cwf fuel (k.withLog l) d = some (k'.withLog l') ∧
      PsInv c p st [] (s ++ d) k' ∧ PsDumpLog c p (s ++ d) k' l' := by
  intro fuel
  induction fuel with
  | zero =>
    intro k s d l hd h hl
    have : d = [] := List.length_eq_zero_iff.mp (by omega)
    subst this
    exact ⟨k, l, rfl, rfl, by simpa using h, by simpa using hl⟩
  | succ fuel ih =>
    intro k s d l hd h hl
    match d, hd with
    | [], _ => exact ⟨k, l, by simp [feedN], by simp [feedN], by simpa using h, by simpa using hl⟩
    | x :: xs, hd =>
      rcases h.live with ⟨q, hq⟩ | hst
      · obtain ⟨got, hph, hgot⟩ := hq.ph
        have hql := hq.len
        let n := min (min c.bufSize (c.bufSize - k.u.remain - got)) (x :: xs).length
        have hn1 : 1 ≤ n := by simp only [n, List.length_cons]; omega
        have hnl : ((x :: xs).take n).length = n := by simp only [List.length_take]; omega
        have hcap : got + ((x :: xs).take n).length ≤ c.bufSize - k.u.remain := by rw [hnl]; simp only [n]; omega
        have hne : (x :: xs).take n ≠ [] := by
          intro h0; rw [h0] at hnl; simp at hnl; omega
        obtain ⟨k1, hk1, _⟩ := ps_step hp (cwf := cwf) hq hph hcap
        have hi1 : PsInv c p st [] (s ++ (x :: xs).take n) k1 := by
          refine ps_inv_step hp h hq (fun q' hq' => ?_)
          obtain ⟨k2, hk2, hs2⟩ := ps_step hp (cwf := cwf) hq' hph hcap
          rw [hk1] at hk2
          cases hk2
          exact hs2
        obtain ⟨l1, hkl1, hl1⟩ := psDump_step hp h hq hl hph hne hcap hk1
        obtain ⟨k2, l2, hk2, hkl2, hi2, hl2⟩ := ih k1 _ ((x :: xs).drop n) l1 (by simp only [List.length_drop]; omega) hi1 hl1
        rw [List.append_assoc, List.take_append_drop] at hi2 hl2
        refine ⟨k2, l2, ?_, ?_, hi2, hl2⟩
        · have hfe : feedN (psOps c p) cwf (fuel + 1) k (x :: xs) =
              (readSome (psOps c p) cwf k (c.bufSize - k.u.remain) got ((x :: xs).take n)).bind (fun k => feedN (psOps c p) cwf fuel k ((x :: xs).drop n)) := by
            simp [feedN, hph, n, bind]
          rw [hfe, hk1]; exact hk2
        · have hph' : (k.withLog l).ph = .reading (c.bufSize - k.u.remain) got c.bufSize := hph
          have hfe : feedN (psDumpOps c p) cwf (fuel + 1) (k.withLog l) (x :: xs) =
              (readSome (psDumpOps c p) cwf (k.withLog l) (c.bufSize - k.u.remain) got ((x :: xs).take n)).bind (fun k => feedN (psDumpOps c p) cwf fuel k ((x :: xs).drop n)) := by
            simp [feedN, hph', n, bind]
          rw [hfe, hkl1]; exact hkl2
      · have hst' : (k.withLog l).ph = .stalled := hst
        refine ⟨k, l, by simp [feedN, hst], by simp [feedN, hst'], ps_inv_stalled hp h hst _, hl.1, ?_⟩
        have ha := psFrames_append hp s (x :: xs)
        have hl2 := hl.2
        unfold PsInv at h
        generalize psFrames c p s = F at h ha hl2
        obtain ⟨fs, q0 | q0⟩ := F
        · obtain ⟨_, h, _⟩ := h.2.ph
          rw [hst] at h; cases h
        · simp only at ha hl2
          rw [ha]
          simp only
          rcases hl2 with h3 | ⟨n, r', t, h3, h4, h5⟩
          · exact Or.inl h3
          · exact Or.inr ⟨n, r', t, h3, h4.trans (List.prefix_append _ _), h5⟩

theorem psDump_feedAll {c : Cfg} {p : PsCfg} (hp : p.Valid c) {st cwf : Bool} : ∀ (ds : List Bytes) (k : Conn Ps) (s : Bytes) (l : List (List Char)),
    PsInv c p st [] s k → PsDumpLog c p s k l →
    ∃ k' l', feedAll (psOps c p) cwf k ds = some k' ∧ feedAll (psDumpOps c p) cwf (k.withLog l) ds = some (k'.withLog l') ∧
      PsInv c p st [] (s ++ ds.flatten) k' ∧ PsDumpLog c p (s ++ ds.flatten) k' l' := by
  intro ds
  induction ds with
  | nil => intro k s l h hl; exact ⟨k, l, rfl, rfl, by simpa using h, by simpa using hl⟩
  | cons d ds ih =>
    intro k s l h hl
    obtain ⟨k1, l1, h1, g1, hi1, hl1⟩ := psDump_feedN hp (cwf := cwf) d.length k s d l (Nat.le_refl _) h hl
    obtain ⟨k2, l2, h2, g2, hi2, hl2⟩ := ih k1 _ l1 hi1 hl1
    refine ⟨k2, l2, by simp [feedAll, feed, h1, h2], by simp [feedAll, feed, g1, g2], by simpa [List.append_assoc] using hi2, by simpa [List.append_assoc] using hl2⟩

theorem psDump_receive {c : Cfg} {p : PsCfg} (hp : p.Valid c) (st cwf : Bool) (raw : Bytes) (hraw : raw.length = c.bufSize) (ds : List Bytes) :
    ∃ k l, receive (psOps c p) cwf (Ps.init raw st) ds = some k ∧ receive (psDumpOps c p) cwf (Ps.init raw st, []) ds = some (k.withLog l) ∧
      PsInv c p st [] ds.flatten k ∧ PsDumpLog c p ds.flatten k l := by
  have hb0 : 0 < c.bufSize := by have := hp.2; omega
  obtain ⟨k0, hk0, hlog, hw, _⟩ := ps_start hp (u := Ps.init raw st) (q := []) hraw (by simpa using hb0) (by simp) (Or.inl rfl) rfl []
  have hi0 : PsInv c p st [] [] k0 := by
    unfold PsInv; rw [psFrames_wait psVerdict_nil]
    exact ⟨by simp [hlog, msgs, psVisible], hw psVerdict_nil⟩
  have hl0 : PsDumpLog c p [] k0 [] := by
    unfold PsDumpLog; rw [psFrames_wait psVerdict_nil]
    exact ⟨by simp [hlog], rfl⟩
  obtain ⟨k, l, hk, hkl, hi, hl⟩ := psDump_feedAll hp (cwf := cwf) ds k0 [] [] hi0 hl0
  have hd0 := startRead_dump (dump := fun _ _ v => Ps.dump v) (l := []) hk0
  exact ⟨k, l, by simp [receive, hk0, hk], by simp [receive, hd0, hkl], by simpa using hi, by simpa using hl⟩

/-- **C101** for the prefix-suffix unpacker, good streams: however the stream of messages and heartbeats (or any prefix of it) is cut into reads, nothing is logged. -/
theorem C101_prefix_suffix_good (c : Cfg) (hv : c.Valid) (p : PsCfg) (hp : p.Valid c) (raw : Bytes) (hraw : raw.length = c.bufSize)
    (stripped cwf : Bool) (sent : List (Item × Bytes)) (hsent : ∀ x ∈ sent, PsSends c p x.1 x.2)
    (hearly : ∀ x ∈ sent, NoEarlySuffix p.suf x.1)
    (chunks : List Bytes) (later : Bytes) (hstream : chunks.flatten ++ later = (sent.map (·.2)).flatten) :
    ∃ k, receive (dumpOps (psOps c p) (fun _ _ v => v.dump)) cwf (Ps.init raw stripped, []) chunks = some k ∧ k.u.2 = [] := by
  obtain ⟨hw, hi⟩ := psSends_stream hv hp sent hsent
  rw [hw] at hstream
  obtain ⟨fs, q, h1, h2, _⟩ := psFrames_items hp stripped _ (fun b hb => ⟨hi b hb, by
    obtain ⟨x, hx, rfl⟩ := List.mem_map.mp hb; exact hearly x hx⟩) _ _ hstream
  obtain ⟨k, l, _, hk, _, hl⟩ := psDump_receive hp stripped cwf raw hraw chunks
  have hl := hl.2
  rw [h1] at hl
  exact ⟨_, hk, hl⟩

/-- **C101** for the prefix-suffix unpacker, any stream that begins with complete messages and goes on with malformed data, and any cut into reads: the first thing logged, if anything is, shows
bytes from the first malformed one on, at least one, none of a good message, and only such that have arrived. Nothing is logged only if reception has stopped without an error (C08). -/
theorem C101_prefix_suffix_malformed (c : Cfg) (hv : c.Valid) (p : PsCfg) (hp : p.Valid c) (raw : Bytes) (hraw : raw.length = c.bufSize)
    (stripped cwf : Bool) (sent : List (Item × Bytes)) (hsent : ∀ x ∈ sent, PsSends c p x.1 x.2)
    (hearly : ∀ x ∈ sent, NoEarlySuffix p.suf x.1) (hlast : (sent.map (·.1)).getLast? ≠ some [])
    (bad : Bytes) (hbad : PsMalformed p.pre p.suf c.bufSize bad) (chunks : List Bytes) (hstream : chunks.flatten = (sent.map (·.2)).flatten ++ bad) :
    ∃ k, receive (dumpOps (psOps c p) (fun _ _ v => v.dump)) cwf (Ps.init raw stripped, []) chunks = some k ∧
      ((k.u.2 = [] ∧ k.ph = .stalled ∧ .unpackError ∉ k.log) ∨
        ∃ announced dump shown t, k.u.2 = dumpMessage announced dump :: t ∧ readHex dump = some shown ∧ shown <+: bad ∧ shown ≠ []) := by
  obtain ⟨hw, hi⟩ := psSends_stream hv hp sent hsent
  obtain ⟨fs, q, h1, h2, h3⟩ := psFrames_items hp stripped _ (fun b hb => ⟨hi b hb, by
    obtain ⟨x, hx, rfl⟩ := List.mem_map.mp hb; exact hearly x hx⟩) _ [] (List.append_nil _)
  have hq := h3 rfl hlast
  subst hq
  have ha := psFrames_append hp ((sent.map (·.1)).map (psWire p.pre p.suf)).flatten bad
  rw [h1] at ha
  simp only [List.nil_append] at ha
  rw [psFrames_bad (psMalformed_verdict hp hbad), ← hw, ← hstream] at ha
  obtain ⟨k, l, _, hk, _, hl0, hl⟩ := psDump_receive hp stripped cwf raw hraw chunks
  rw [ha] at hl
  refine ⟨_, hk, ?_⟩
  rcases hl with ⟨rfl, h4⟩ | ⟨n, r', t, h4, h5, h6⟩
  · refine Or.inl ⟨rfl, h4, ?_⟩
    intro hm
    have := List.countP_eq_zero.mp hl0.symm _ hm
    simp at this
  · exact Or.inr ⟨n, _, r', t, h4, dumpFrom_read r', h5, h6⟩

/-- **C101**: every failure to unpack logs one text, and nothing else does. -/
theorem C101_prefix_suffix_one_each (c : Cfg) (p : PsCfg) (hp : p.Valid c) (raw : Bytes) (hraw : raw.length = c.bufSize) (stripped cwf : Bool) (chunks : List Bytes) :
    ∃ k, receive (dumpOps (psOps c p) (fun _ _ v => v.dump)) cwf (Ps.init raw stripped, []) chunks = some k ∧
      k.u.2.length = k.log.countP (· == .unpackError) := by
  obtain ⟨k, l, _, hk, _, hl0, _⟩ := psDump_receive hp stripped cwf raw hraw chunks
  exact ⟨_, hk, hl0⟩

/-- **C101**: malformed data that arrives in later reads than the good messages is always logged. -/
theorem C101_prefix_suffix_logged (c : Cfg) (hv : c.Valid) (p : PsCfg) (hp : p.Valid c) (raw : Bytes) (hraw : raw.length = c.bufSize)
    (stripped cwf : Bool) (sent : List (Item × Bytes)) (hsent : ∀ x ∈ sent, PsSends c p x.1 x.2)
    (hearly : ∀ x ∈ sent, NoEarlySuffix p.suf x.1) (hlast : (sent.map (·.1)).getLast? ≠ some [])
    (good bad : List Bytes) (hgood : good.flatten = (sent.map (·.2)).flatten) (hbad : PsMalformed p.pre p.suf c.bufSize bad.flatten) :
    ∃ k, receive (dumpOps (psOps c p) (fun _ _ v => v.dump)) cwf (Ps.init raw stripped, []) (good ++ bad) = some k ∧
      ∃ announced dump shown t, k.u.2 = dumpMessage announced dump :: t ∧ readHex dump = some shown ∧ shown <+: bad.flatten ∧ shown ≠ [] := by
  obtain ⟨k, hk, h⟩ := C101_prefix_suffix_malformed c hv p hp raw hraw stripped cwf sent hsent hearly hlast bad.flatten hbad (good ++ bad) (by simp [hgood])
  refine ⟨k, hk, ?_⟩
  rcases h with ⟨_, _, h⟩ | h
  · obtain ⟨k1, t, h1, h2⟩ := C08_malformed_reported_partial c hv p hp raw hraw stripped cwf sent hsent hearly hlast good bad hgood hbad
    obtain ⟨k2, l, h3, h4, _, _⟩ := psDump_receive hp stripped cwf raw hraw (good ++ bad)
    rw [h1] at h3; cases h3
    rw [hk] at h4; cases h4
    refine absurd ?_ h
    show RxEvent.unpackError ∈ k1.log
    rw [h2]; simp
  · exact h

/-- Non-vacuity: a message, then bytes without the prefix, in two reads; in one read with the message (C08) reception stops and nothing is logged. -/
theorem C101_prefix_suffix_demo :
    (receive (psDumpOps exCfgPs exPs) false (Ps.init (List.replicate 8 0) true, []) [[1, 7, 2, 3], [9, 8], [7]]).map (fun k => (k.log, k.u.2)) =
      some ([.msg [7], .unpackError, .unpackError], ["unparsed data (current msg length is: 0) are:\n09 08".toList, "unparsed data (current msg length is: 0) are:\n07".toList]) ∧
    (receive (psDumpOps exCfgPs exPs) false (Ps.init (List.replicate 8 0) true, []) [[1, 7, 2, 3, 9, 8], [7]]).map (fun k => (k.log, k.u.2)) = some ([.msg [7]], []) ∧
    PsMalformed exPs.pre exPs.suf exCfgPs.bufSize [9, 8, 7] ∧ PsSends exCfgPs exPs [7] [1, 7, 2, 3] :=
  ⟨by decide +kernel, by decide +kernel, Or.inl (by decide), PsSends.two [] [7] (by decide)⟩

end StAsio
