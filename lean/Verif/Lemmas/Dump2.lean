import Verif.Lemmas.Dump
/-! The dumps of the unpackers for the protocol "length + body". -/
set_option autoImplicit false
namespace StAsio

/-- The length announced by a malformed head. -/
def announcedBy (hl : Nat) (r : Bytes) : Nat := beVal (r.take hl)

theorem head_lt (c : Cfg) (r : Bytes) : beVal (r.take c.headLen) < 2 ^ 64 - 1 := by
  have hx := beVal_lt (r.take c.headLen)
  have : (r.take c.headLen).length ≤ 4 := by rw [List.length_take]; have := c.headLen_le; omega
  have : 256 ^ (r.take c.headLen).length ≤ 256 ^ 4 := Nat.pow_le_pow_right (by omega) this
  omega

theorem dump_rest {c : Cfg} {raw r : Bytes} {cur : Option Nat} {remain : Nat} (h1 : remain = r.length) (h2 : raw.take remain = r) (h3 : c.headLen ≤ r.length)
    (h4 : cur = some (beVal (r.take c.headLen))) : dumpLeft raw (curMsgLen cur) remain = some [dumpOf (announcedBy c.headLen r) r] := by
  have hl0 := c.headLen_pos
  have hle : remain ≤ raw.length := by
    have := congrArg List.length h2
    rw [List.length_take] at this; omega
  have hlt := head_lt c r
  have hcm : curMsgLen cur = beVal (r.take c.headLen) := by rw [h4]; rfl
  rw [dumpLeft_eq hle, hcm, h2, if_pos (by omega), if_neg (by omega)]
  rfl

theorem dump_some {data : Bytes} {cur remain : Nat} (h : remain ≤ data.length) : ∃ t, dumpLeft data cur remain = some t := ⟨_, dumpLeft_eq h⟩

theorem curOk_append {c : Cfg} {cur : Option Nat} {p d : Bytes} (h : CurOk c cur p) : CurOk c cur (p ++ d) := by
  rcases h with h | ⟨ha, hb⟩
  · exact Or.inl h
  · refine Or.inr ⟨by simp; omega, ?_⟩
    rw [List.take_append_of_le_length ha]; exact hb

theorem unpacker_dumps (c : Cfg) (st : Bool) :
    DumpsRest (unpackerOps c) (fun _ _ v => v.dump) (UnpRel c st) c.headLen c.bufSize (announcedBy c.headLen) := by
  intro k p cap got want d hR hph hne hdw hdc u0 u1 hw hu u2 ms hp
  have hl0 := c.headLen_pos
  obtain ⟨got', h1, h2, h3⟩ := hR.ph
  rw [hph] at h1
  simp only [RxPhase.reading.injEq] at h1
  obtain ⟨rfl, rfl, rfl⟩ := h1
  simp only [unpackerOps, Unp.write, Option.bind_eq_bind, Option.bind_eq_some_iff] at hw
  obtain ⟨raw', hw, e⟩ := hw
  cases e
  have hwt := writeAt_take hw
  rw [h2] at hwt
  have hraw := hR.raw
  have hcur := curOk_append (d := d) hR.cur
  have hcv : ∀ n, k.u.cur = some n → ¬ (n < c.headLen ∨ c.bufSize < n) := by
    intro n hn
    rcases hR.cur with hc | ⟨h1, h2⟩
    · rw [hc] at hn; simp at hn
    · rw [h2] at hn; simp at hn; subst hn; exact incomplete_valid hl0 h1 hR.pend
  obtain ⟨cur', want', hcond, hcur', _⟩ := cond_spec c { k.u with raw := raw' } (got + d.length) (p ++ d) (by simp only; omega)
    (by rw [← Nat.add_assoc]; exact hwt.2) (by simp only; omega) hcur hcv
  have hu1 : ∃ cur, u1 = { k.u with raw := raw', cur := cur } ∧ CurOk c cur (p ++ d) := by
    rcases hu with rfl | ⟨w, hu⟩
    · exact ⟨k.u.cur, rfl, hcur⟩
    · simp only [unpackerOps, hcond, Option.some.injEq, Prod.mk.injEq] at hu
      exact ⟨cur', hu.1.symm, hcur'⟩
  obtain ⟨cur, rfl, hc⟩ := hu1
  obtain ⟨u', ok, heq, hraw', _, hm⟩ := parse_spec c { k.u with raw := raw', cur := cur } (got + d.length) (p ++ d) (by simp only; omega)
    (by simp only; rw [← Nat.add_assoc]; exact hwt.2) (by simp only; omega) hc
  simp only [unpackerOps] at hp
  rw [heq] at hp
  simp only [Option.some.injEq, Prod.mk.injEq] at hp
  obtain ⟨rfl, _, rfl⟩ := hp
  cases hF : (frames c.headLen c.bufSize (p ++ d)).2 with
  | incomplete r =>
    rw [hF] at hm
    obtain ⟨h4, _, _, h5⟩ := hm
    have hle : u'.remain ≤ u'.raw.length := by
      have := congrArg List.length h4
      rw [List.length_take] at this; omega
    obtain ⟨t, ht⟩ := dump_some (cur := curMsgLen u'.cur) hle
    exact ⟨t, ht, fun r h => by cases h⟩
  | bad r =>
    rw [hF] at hm
    have hb := frames_bad_len _ _ hl0 _ _ hF
    exact ⟨_, dump_rest hm.2.2.2 hm.2.2.1 hb.1 hm.2.1, fun r' h => by cases h; rfl⟩

theorem Flex.parse_false {c : Cfg} {junk : Nat → Bytes} {u : Flex} {bytes : Nat} {v : Flex} {ms : List Bytes} (hb : u.big = [])
    (h : Flex.parse c junk u bytes = some (v, ms, false)) :
    ∃ u' b, Flex.peekHead c { u with remain := u.remain + bytes } = some u' ∧
      Unp.parseBody c { raw := u'.raw, cur := u'.cur, remain := u'.remain, stripped := u'.stripped } = some (b, ms, false) ∧
      v = { u' with raw := b.raw, cur := b.cur, remain := b.remain } := by
  unfold Flex.parse at h
  simp only at h
  split at h
  · cases h
  · rw [if_neg (by simp [hb])] at h
    simp only [Option.bind_eq_bind, Option.bind_eq_some_iff] at h
    obtain ⟨u', h1, h⟩ := h
    split at h
    · simp only [Option.bind_eq_some_iff] at h
      obtain ⟨x, _, h⟩ := h
      cases h
    · simp only [Option.bind_eq_some_iff] at h
      obtain ⟨⟨b, ms', ok⟩, h2, h⟩ := h
      simp only at h
      split at h
      · next hc =>
        simp only [Option.bind_eq_some_iff] at h
        obtain ⟨x, _, h⟩ := h
        cases h
        simp at hc
      · cases h
        exact ⟨u', b, h1, h2, rfl⟩

theorem peek_curOk {c : Cfg} {u u' : Flex} {d : Bytes} (hd : u.raw.take u.remain = d) (hl : u.remain = d.length) (hc : CurOk c u.cur d)
    (h : Flex.peekHead c u = some u') : ∃ cur, u' = { u with cur := cur } ∧ CurOk c cur d := by
  unfold Flex.peekHead at h
  cases hcur : u.cur with
  | some n => rw [hcur] at h; cases h; exact ⟨u.cur, rfl, hc⟩
  | none =>
    rw [hcur] at h
    simp only at h
    split at h
    · next hle =>
      have hrl : u.remain ≤ u.raw.length := by
        have := congrArg List.length hd
        rw [List.length_take] at this; omega
      rw [readAt_some (by omega)] at h
      cases h
      refine ⟨_, rfl, Or.inr ⟨by omega, ?_⟩⟩
      rw [← hd, List.take_take, List.drop_zero, Nat.min_eq_left hle]
    · cases h; exact ⟨u.cur, rfl, hc⟩

theorem flex_dumps (c : Cfg) (junk : Nat → Bytes) (st : Bool) :
    DumpsRest (flexOps c junk) (fun _ _ v => v.dump) (FlexRel c st) c.headLen c.bufSize (announcedBy c.headLen) := by
  intro k p cap got want d hR hph hne hdw hdc u0 u1 hw hu u2 ms hp
  have hl0 := c.headLen_pos
  obtain ⟨⟨raw, big, kcur, remain, str⟩, ph, log⟩ := k
  obtain ⟨got', h1, hmode⟩ := hR.ph
  simp only at hph h1 hw
  rw [hph] at h1
  simp only [RxPhase.reading.injEq] at h1
  obtain ⟨rfl, rfl, rfl⟩ := h1
  rcases hmode with hS | hB
  · have hraw := hS.raw
    have hbig := hS.big
    have hhold := hS.hold
    have hlen := hS.len
    have hcurp := hS.cur
    simp only at hraw hbig hhold hlen hcurp
    subst hbig
    have hsz : (Flex.mk raw [] kcur remain str).size = flexSize := by simp [Flex.size]
    rw [hsz] at hdc
    simp only [flexOps, Flex.write, if_true, Option.bind_eq_bind, Option.bind_eq_some_iff] at hw
    obtain ⟨raw', hw, e⟩ := hw
    cases e
    have hwt := writeAt_take hw
    rw [hhold] at hwt
    have hcur := curOk_append (d := d) hcurp
    have hcv : ∀ n, kcur = some n → ¬ (n < c.headLen ∨ c.bufSize < n) ∧ n ≤ flexSize := by
      intro n hn
      rcases hcurp with hc | ⟨h1, h2⟩
      · rw [hc] at hn; simp at hn
      · rw [h2] at hn; simp at hn; subst hn
        exact ⟨incomplete_valid hl0 h1 hS.pend, hS.small h1⟩
    have hd' : raw'.take (remain + (got + d.length)) = p ++ d := by rw [← Nat.add_assoc]; exact hwt.2
    have hl' : remain + (got + d.length) = (p ++ d).length := by simp; omega
    have hfit : remain + (got + d.length) ≤ raw'.length := by
      have := congrArg List.length hd'
      rw [List.length_take] at this; omega
    obtain ⟨cur', want', hcond, hcur', _⟩ := flex_cond_small ({ raw := raw', big := [], cur := kcur, remain := remain, stripped := str } : Flex) (got + d.length) (p ++ d) (by simp only; omega) rfl hd' hl' hcur hcv
    have hu1 : ∃ cur, u1 = ({ raw := raw', big := [], cur := cur, remain := remain, stripped := str } : Flex) ∧ CurOk c cur (p ++ d) := by
      rcases hu with rfl | ⟨w, hu⟩
      · exact ⟨kcur, rfl, hcur⟩
      · simp only [flexOps, hcond, Option.some.injEq, Prod.mk.injEq] at hu
        exact ⟨cur', hu.1.symm, hcur'⟩
    obtain ⟨cur, rfl, hc⟩ := hu1
    obtain ⟨u', b, hpk, hbody, rfl⟩ := Flex.parse_false (c := c) (junk := junk) (u := ({ raw := raw', big := [], cur := cur, remain := remain, stripped := str } : Flex)) rfl hp
    obtain ⟨cur2, rfl, hc2⟩ := peek_curOk (d := p ++ d) hd' hl' hc hpk
    obtain ⟨b', ok, heq, hrl', _, hm⟩ := parseBody_spec c { raw := raw', cur := cur2, remain := remain + (got + d.length), stripped := str } (p ++ d) hd'
      (by simp only; omega) hc2
    simp only at hbody
    rw [heq] at hbody
    simp only [Option.some.injEq, Prod.mk.injEq] at hbody
    obtain ⟨rfl, _, rfl⟩ := hbody
    simp only [Flex.dump, if_true]
    cases hF : (frames c.headLen c.bufSize (p ++ d)).2 with
    | incomplete r =>
      rw [hF] at hm
      obtain ⟨h4, _, _, h5, _⟩ := hm
      have hle : b'.remain ≤ b'.raw.length := by
        have := congrArg List.length h4
        rw [List.length_take] at this; omega
      obtain ⟨t, ht⟩ := dump_some (cur := curMsgLen b'.cur) hle
      exact ⟨t, ht, fun r h => by cases h⟩
    | bad r =>
      rw [hF] at hm
      have hb := frames_bad_len _ _ hl0 _ _ hF
      exact ⟨_, dump_rest hm.2.2.2 hm.2.2.1 hb.1 hm.2.1, fun r' h => by cases h; rfl⟩
  · have hbne := hB.ne
    simp only at hbne
    have hsz : (Flex.mk raw big kcur remain str).size = big.length := by simp [Flex.size, hbne]
    have hlen := hB.len
    have hltp := hB.lt
    have hsize := hB.size
    have hstl := stepOf_le c str
    obtain ⟨hB1, hB2, hB3⟩ := hB.head
    simp only at hlen hltp hsize hstl
    rw [hsz] at hdc
    simp only [flexOps, Flex.write, hbne, if_false, Option.bind_eq_bind, Option.bind_eq_some_iff] at hw
    obtain ⟨big', hw, e⟩ := hw
    cases e
    have hwt := writeAt_take hw
    have hbl : big'.length = big.length := hwt.1
    have hbne' : big' ≠ [] := by
      intro h; rw [h] at hbl; simp at hbl; exact hbne (List.length_eq_zero_iff.mp hbl.symm)
    have hu1 : u1 = ({ raw := raw, big := big', cur := kcur, remain := remain, stripped := str } : Flex) := by
      rcases hu with rfl | ⟨w, hu⟩
      · rfl
      · have hc := hB.cur
        simp only at hc
        subst hc
        simp only [flexOps, Flex.cond] at hu
        split at hu
        · cases hu
        · cases hu; rfl
    subst hu1
    simp only [flexOps, Flex.parse] at hp
    split at hp
    · cases hp
    · split at hp
      · cases hp
        simp only [Flex.dump, hbne', if_false]
        obtain ⟨t, ht⟩ := dump_some (data := big') (cur := curMsgLen kcur) (remain := remain + (got + d.length)) (by omega)
        refine ⟨t, ht, ?_⟩
        intro r hr
        exfalso
        have h0 := frames_append c.headLen c.bufSize hl0 p d
        have ht : (p ++ d).take c.headLen = p.take c.headLen := List.take_append_of_le_length hB1
        have hb := frames_bad_len _ _ hl0 _ _ hr
        have hnb : ¬ (beVal ((p ++ d).take c.headLen) < c.headLen ∨ c.bufSize < beVal ((p ++ d).take c.headLen)) := by
          rw [ht]
          have := c.headLen_le
          unfold flexSize at hB2
          omega
        by_cases hle : beVal ((p ++ d).take c.headLen) ≤ (p ++ d).length
        · rw [frames_one hl0 (by simp; omega) hnb hle] at hr
          have he : (p ++ d).drop (beVal ((p ++ d).take c.headLen)) = [] := by
            apply List.drop_of_length_le
            rw [ht]
            simp only [List.length_append]
            omega
          rw [he, frames_short (by simpa using hl0)] at hr
          cases hr
        · rw [frames_wait hl0 (by simp; omega) hnb (by omega)] at hr
          cases hr
      · cases hp

/-- What non_copy_unpacker shows as the current message length for a malformed head: the body's length computed modulo 2^64, but 0 for -1. -/
def bodyAnnounced (hl : Nat) (r : Bytes) : Nat :=
  if beVal (r.take hl) + 1 = hl then 0 else (beVal (r.take hl) + 2 ^ 64 - hl) % 2 ^ 64

theorem nonCopy_dumps (c : Cfg) (junk : Nat → Bytes) :
    DumpsRest (nonCopyOps c junk) (fun u n _ => NonCopy.dump c u n) (NonCopyRel c) c.headLen c.bufSize (bodyAnnounced c.headLen) := by
  intro k p cap got want d hR hph hne hdw hdc u0 u1 hw hu u2 ms hp
  have hl0 := c.headLen_pos
  have hl4 := c.headLen_le
  have hhl := hR.head
  have hdl : 0 < d.length := List.length_pos_iff.mpr hne
  have hu1 : u1 = u0 := by
    rcases hu with rfl | ⟨w, hu⟩
    · rfl
    · simp only [nonCopyOps, NonCopy.cond] at hu
      (repeat' split at hu) <;> cases hu <;> rfl
  subst hu1
  obtain ⟨got', hm | hm⟩ := hR.mode
  · obtain ⟨h1, h2, h3, h4, h5, h6⟩ := hm
    rw [h3] at hph
    simp only [RxPhase.reading.injEq] at hph
    obtain ⟨rfl, rfl, rfl⟩ := hph
    simp only [nonCopyOps, NonCopy.write, h2, if_true, Option.bind_eq_bind, Option.bind_eq_some_iff] at hw
    obtain ⟨head', hw, e⟩ := hw
    cases e
    have hwt := writeAt_take hw
    rw [h4] at hwt
    have hle : got' + d.length ≤ head'.length := by omega
    by_cases hf : c.headLen = got' + d.length
    · have hhead' : head' = p ++ d := by rw [← hwt.2, List.take_of_length_le (by omega)]
      have ht : (p ++ d).take c.headLen = p ++ d := List.take_of_length_le (by simp; omega)
      simp only [NonCopy.dump, h1, if_true]
      rw [if_neg (fun h => h hf), dumpLeft_eq hle, if_pos (by omega)]
      refine ⟨_, rfl, ?_⟩
      intro r hr
      have hb := frames_bad_len _ _ hl0 _ _ hr
      have hrr : r = p ++ d := by
        have hfl := frames_flatten c.headLen c.bufSize (p ++ d)
        rw [hr] at hfl
        simp only [Tail.rest] at hfl
        have hlen := congrArg List.length hfl
        simp only [List.length_append] at hlen
        have h0 : (frames c.headLen c.bufSize (p ++ d)).1.flatten = [] := List.length_eq_zero_iff.mp (by omega)
        rw [h0] at hfl
        simpa using hfl
      subst hrr
      rw [hwt.2, hhead', bodyAnnounced, ht]
      congr 1
      have hlt := head_lt c (p ++ d)
      rw [ht] at hlt
      congr 1
      have hwrap := wrap_sub (beVal (p ++ d)) c.headLen (by omega) (by omega)
      rw [hwrap]
      split <;> split <;> split <;> omega
    · simp only [NonCopy.dump, h1, if_true, ne_eq, hf, not_false_eq_true]
      rw [dumpLeft_eq hle]
      refine ⟨_, rfl, ?_⟩
      intro r hr
      rw [frames_short (by simp; omega)] at hr
      cases hr
  · obtain ⟨h1, h2, h3, h4, h5, h6, h7, h8⟩ := hm
    rw [h6] at hph
    simp only [RxPhase.reading.injEq] at hph
    obtain ⟨rfl, rfl, rfl⟩ := hph
    have hne' : k.u.raw ≠ [] := by intro h; rw [h] at h5; simp at h5; omega
    simp only [nonCopyOps, NonCopy.write, hne', if_false, Option.bind_eq_bind, Option.bind_eq_some_iff] at hw
    obtain ⟨raw', hw, e⟩ := hw
    cases e
    have hwt := writeAt_take hw
    simp only [NonCopy.dump, h1, Nat.one_ne_zero, if_false]
    rw [dumpLeft_eq (by omega)]
    refine ⟨_, rfl, ?_⟩
    intro r hr
    exfalso
    have ht : (p ++ d).take c.headLen = p.take c.headLen := List.take_append_of_le_length h2
    have hnb : ¬ (beVal ((p ++ d).take c.headLen) < c.headLen ∨ c.bufSize < beVal ((p ++ d).take c.headLen)) := by rw [ht]; omega
    by_cases hle : beVal ((p ++ d).take c.headLen) ≤ (p ++ d).length
    · rw [frames_one hl0 (by simp; omega) hnb hle] at hr
      have he : (p ++ d).drop (beVal ((p ++ d).take c.headLen)) = [] := by
        apply List.drop_of_length_le
        rw [ht]
        simp only [List.length_append]
        omega
      rw [he, frames_short (by simpa using hl0)] at hr
      cases hr
    · rw [frames_wait hl0 (by simp; omega) hnb (by omega)] at hr
      cases hr

end StAsio
