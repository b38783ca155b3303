import Verif.Lemmas.Protocols2
/-! A read that ends with an error in the middle of a message: parse_msg is called once more (include/tcp/socket.h:352-357) and finds no message. -/
set_option autoImplicit false
namespace StAsio

/-- What was read of an unfinished message is not handed over. -/
def Codec.Cuts (K : Codec) (Inv : Bytes → Conn K.σ → Prop) : Prop :=
  ∀ s k cap got want, Inv s k → k.ph = .reading cap got want → 0 < got → ∃ u ok, K.ops.parse k.u got = some (u, [], ok)

theorem unpacker_cut {c : Cfg} {st : Bool} {k : Conn Unp} {p : Bytes} {cap got want : Nat} (h : UnpRel c st k p) (hph : k.ph = .reading cap got want) :
    ∃ u ok, (unpackerOps c).parse k.u got = some (u, [], ok) := by
  obtain ⟨got', h1, h2, h3⟩ := h.ph
  rw [hph] at h1
  simp only [RxPhase.reading.injEq] at h1
  obtain ⟨rfl, rfl, rfl⟩ := h1
  obtain ⟨u', ok, hu, _⟩ := parse_spec c k.u got p h.raw h2 (by omega) h.cur
  refine ⟨u', ok, ?_⟩
  simp only [unpackerOps]
  rw [hu, h.pend]
  rfl

theorem flex_cut {c : Cfg} (hv : c.Valid) {junk : Nat → Bytes} {st : Bool} {k : Conn Flex} {p : Bytes} {cap got want : Nat} (h : FlexRel c st k p)
    (hph : k.ph = .reading cap got want) : ∃ u ok, (flexOps c junk).parse k.u got = some (u, [], ok) := by
  obtain ⟨got', h1, h2⟩ := h.ph
  rw [hph] at h1
  simp only [RxPhase.reading.injEq] at h1
  obtain ⟨rfl, rfl, rfl⟩ := h1
  rcases h2 with h2 | h2
  · have hlt := flexSmall_lt hv h2
    have hraw : k.u.raw.length = flexSize := h2.raw
    have hbig : k.u.big = [] := h2.big
    have hhold : k.u.raw.take (k.u.remain + got) = p := h2.hold
    have hlen : k.u.remain + got = p.length := h2.len
    have hcur : CurOk c k.u.cur p := h2.cur
    have hpk : ∃ cur, Flex.peekHead c { k.u with remain := k.u.remain + got } = some { k.u with remain := k.u.remain + got, cur := cur } ∧ CurOk c cur p := by
      unfold Flex.peekHead
      simp only
      cases hc : k.u.cur with
      | some n => exact ⟨some n, rfl, by rw [← hc]; exact hcur⟩
      | none =>
        simp only
        split
        · next hle =>
          have hp0 := c.headLen_pos
          rw [readAt_some (by omega)]
          refine ⟨_, rfl, Or.inr ⟨by omega, ?_⟩⟩
          rw [← hhold, List.take_take, List.drop_zero, Nat.min_eq_left hle]
        · exact ⟨none, rfl, Or.inl rfl⟩
    obtain ⟨cur, hpk1, hpk2⟩ := hpk
    have hsm : (cur.any (fun n => decide (n ≤ c.bufSize ∧ flexSize < n))) = false := by
      rcases hpk2 with e | ⟨e1, e2⟩
      · rw [e]; rfl
      · have := h2.small e1
        rw [e2]
        simp only [Option.any_some, decide_eq_false_iff_not]
        omega
    obtain ⟨u', ok, hu, _, _, hm⟩ := parseBody_spec c { raw := k.u.raw, cur := cur, remain := k.u.remain + got, stripped := k.u.stripped } p hhold
      (by simp only; omega) hpk2
    rw [h2.pend] at hu hm
    simp only at hm
    have hok : ok = false := by
      have := hm.2.2.1
      cases ok <;> simp_all
    subst hok
    obtain ⟨⟨raw, big, cur0, remain, str⟩, ph, log⟩ := k
    simp only at hbig hpk1 hu hlen
    subst hbig
    refine ⟨{ raw := u'.raw, big := [], cur := u'.cur, remain := u'.remain, stripped := str }, false, ?_⟩
    simp only [flexOps, Flex.parse, Flex.size, if_true, ne_eq, not_true_eq_false, if_false]
    rw [if_neg (by omega), hpk1]
    simp only [Option.bind_eq_bind, Option.bind_some, hsm, Bool.false_eq_true, if_false, hu, Bool.false_and]
    rfl
  · have hne := h2.ne
    have h3 := h2.size
    have h4 := h2.len
    have h5 := h2.lt
    have h6 := stepOf_le c k.u.stripped
    have h7 := h2.head.1
    refine ⟨{ k.u with remain := k.u.remain + got }, false, ?_⟩
    simp only [flexOps, Flex.parse]
    have hsz : ({ k.u with remain := k.u.remain + got } : Flex).size = k.u.big.length := by
      simp [Flex.size, hne]
    rw [hsz, if_neg (by omega), if_pos hne, if_pos (by omega)]

theorem nonCopy_cut {c : Cfg} {junk : Nat → Bytes} {k : Conn NonCopy} {p : Bytes} {cap got want : Nat} (h : NonCopyRel c k p) (hph : k.ph = .reading cap got want) :
    ∃ u ok, (nonCopyOps c junk).parse k.u got = some (u, [], ok) := by
  obtain ⟨g, h1 | h1⟩ := h.mode
  · obtain ⟨a1, a2, a3, a4, a5, a6⟩ := h1
    rw [hph] at a3
    simp only [RxPhase.reading.injEq] at a3
    obtain ⟨rfl, rfl, rfl⟩ := a3
    refine ⟨k.u, false, ?_⟩
    simp only [nonCopyOps, NonCopy.parse]
    rw [if_pos a1, if_neg (by simp [a2]), if_pos (by omega)]
  · obtain ⟨a1, a2, a3, a4, a5, a6, a7, a8⟩ := h1
    rw [hph] at a6
    simp only [RxPhase.reading.injEq] at a6
    obtain ⟨rfl, rfl, rfl⟩ := a6
    refine ⟨k.u, false, ?_⟩
    simp only [nonCopyOps, NonCopy.parse]
    rw [if_neg (by omega), if_pos a1, if_neg, if_pos (by omega)]
    intro h0
    rw [h0] at a5
    simp at a5
    omega

theorem fixed_cut {junk : Nat → Bytes} {len : Nat} {k : Conn Fixed} {p : Bytes} {cap got want : Nat} (h : FixedRel len k p) (hph : k.ph = .reading cap got want) :
    ∃ u ok, (fixedOps junk len).parse k.u got = some (u, [], ok) := by
  obtain ⟨g, h1, h2, h3, h4⟩ := h.mode
  rw [hph] at h1
  simp only [RxPhase.reading.injEq] at h1
  obtain ⟨rfl, rfl, rfl⟩ := h1
  refine ⟨k.u, false, ?_⟩
  have := h.size
  simp only [fixedOps, Fixed.parse]
  rw [if_pos (by omega)]

theorem ps_cut {c : Cfg} {p : PsCfg} (hp : p.Valid c) {st : Bool} {k : Conn Ps} {q : Bytes} {cap got want : Nat} (h : PsRel c p st k q) (hph : k.ph = .reading cap got want) :
    ∃ u ok, (psOps c p).parse k.u got = some (u, [], ok) := by
  obtain ⟨g, h1, h2⟩ := h.ph
  rw [hph] at h1
  simp only [RxPhase.reading.injEq] at h1
  obtain ⟨rfl, rfl, rfl⟩ := h1
  have hraw := h.raw
  have hlen := h.len
  have hreg : (k.u.raw.drop 0).take (k.u.remain + got) = q := by rw [List.drop_zero, h2]; exact h.data
  obtain ⟨n, hn, hn1, _, hn2⟩ := ps_loop hp k.u.raw k.u.stripped (k.u.remain + got + 1) 0 (k.u.remain + got) k.u.cur [] (by omega) (by omega) (by omega)
    (by rw [hreg, h.cur]; exact psCur_ok (List.prefix_refl _)) [] q (Or.inl (by rw [hreg]; exact psFrames_wait h.wait))
  have hn0 : n = 0 := hn2.mpr rfl
  subst hn0
  refine ⟨{ k.u with cur := psCur p q, remain := q.length }, false, ?_⟩
  simp only [psOps, Ps.parse]
  rw [if_neg (by omega), hn]
  simp [psVisible]

theorem stream_cut {c : Cfg} {k : Conn Strm} {s : Bytes} {cap got want : Nat} (h : StreamInv c k s) (hph : k.ph = .reading cap got want) : got = 0 := by
  have := h.ph
  rw [hph] at this
  simp only [RxPhase.reading.injEq] at this
  exact this.2.1

/-- Every unpacker of the library does its work, also at the end of a link. -/
theorem Proto.reads_cut (P : Proto) (hv : P.Valid) (nd cwf : Bool) (junk : Nat → Bytes) (hj : ∀ n, (junk n).length = n) (raw : Bytes) (hraw : raw.length = P.rawLen) :
    ∃ Inv, (P.codec nd junk raw).Reads cwf P.wire P.Ok P.Shown Inv ∧ (P.codec nd junk raw).Cuts Inv := by
  cases P with
  | plain c st =>
    refine ⟨_, reads_of_simulates (K := (Proto.plain c st).codec nd junk raw) (unpacker_simulates c hv.1 st cwf) (frameDec_incremental c.headLen c.bufSize c.headLen_pos st)
      (unpacker_start c hv.1 raw hraw st) (fun items hok s later h => frames_shown _ st rfl (fun _ => rfl) items hok s later h) (Proto.count _), ?_⟩
    rintro s k cap got want ⟨ms, p, _, _, h⟩ hph _
    exact unpacker_cut h hph
  | flexible c st =>
    refine ⟨_, reads_of_simulates (K := (Proto.flexible c st).codec nd junk raw) (flex_simulates c hv.1 junk hj st cwf) (frameDec_incremental c.headLen c.bufSize c.headLen_pos st)
      (flex_start c hv.1 junk raw hraw st) (fun items hok s later h => frames_shown _ st rfl (fun _ => rfl) items hok s later h) (Proto.count _), ?_⟩
    rintro s k cap got want ⟨ms, p, _, _, h⟩ hph _
    exact flex_cut hv.1 h hph
  | nonCopy c =>
    refine ⟨_, reads_of_simulates (K := (Proto.nonCopy c).codec nd junk raw) (nonCopy_simulates c hv.1 junk hj cwf) (frameDec_incremental c.headLen c.bufSize c.headLen_pos true)
      (nonCopy_start0 c junk raw hraw []) (fun items hok s later h => frames_shown _ true rfl (fun _ => rfl) items hok s later h) (Proto.count _), ?_⟩
    rintro s k cap got want ⟨ms, p, _, _, h⟩ hph _
    exact nonCopy_cut h hph
  | fixed c len =>
    refine ⟨_, reads_of_simulates (K := (Proto.fixed c len).codec nd junk raw) (fixed_simulates hv.2 junk hj cwf) (fixedDec_incremental len hv.2)
      (fixed_start hv.2 junk hj raw []) (fun items hok s later h => ?_) (Proto.count _), ?_⟩
    · refine ⟨_, _, rfl, ?_⟩
      simp only [Proto.Shown]
      rw [Proto.inBytes_fixed c hv.2 items hok]
      simp only [Proto.wire, List.map_id] at h
      exact pieces_messages hv.2 items hok s later h
    · rintro s k cap got want ⟨ms, p, _, _, h⟩ hph _
      exact fixed_cut h hph
  | prefixSuffix c p st =>
    refine ⟨_, ps_reads hv.2 st nd cwf junk raw hraw, ?_⟩
    rintro s k cap got want ⟨ms, q, _, _, h⟩ hph _
    exact ps_cut hv.2 h hph
  | stream c =>
    have h0 : 0 < c.bufSize := by have h1 : c.Valid := hv; have := h1.1; have := c.headLen_pos; omega
    refine ⟨_, stream_reads h0 nd cwf junk raw hraw, ?_⟩
    intro s k cap got want h hph hg
    have := stream_cut (c := c) h hph
    omega

end StAsio
