import Verif.Model.Flexible
import Verif.Lemmas.Unpacker
/-! The flexible unpacker simulates the ideal frame decoder. -/
set_option autoImplicit false
namespace StAsio

theorem Cfg.headLen_le (c : Cfg) : c.headLen ≤ 4 := by unfold Cfg.headLen; split <;> omega

/-- Number of head bytes removed from a message. -/
def stepOf (c : Cfg) (st : Bool) : Nat := if st then c.headLen else 0

theorem stepOf_le (c : Cfg) (st : Bool) : stepOf c st ≤ c.headLen := by unfold stepOf; split <;> omega

/-- The pending bytes `d` begin with the head of a message that needs the dynamic buffer. -/
def BigHead (c : Cfg) (d : Bytes) : Prop := c.headLen ≤ d.length ∧ flexSize < beVal (d.take c.headLen) ∧ beVal (d.take c.headLen) ≤ c.bufSize

/-- The unpacker (between reads) holds the pending bytes `p` in its fixed buffer. -/
structure FlexSmall (c : Cfg) (u : Flex) (p : Bytes) : Prop where
  raw : u.raw.length = flexSize
  big : u.big = []
  hold : u.raw.take u.remain = p
  len : u.remain = p.length
  cur : CurOk c u.cur p
  pend : frames c.headLen c.bufSize p = ([], .incomplete p)
  small : c.headLen ≤ p.length → beVal (p.take c.headLen) ≤ flexSize

/-- The unpacker holds the pending bytes `p` of a big message in its dynamic buffer, `got` of them from the current read. -/
structure FlexBig (c : Cfg) (u : Flex) (got : Nat) (p : Bytes) : Prop where
  raw : u.raw.length = flexSize
  head : BigHead c p
  cur : u.cur = some (beVal (p.take c.headLen) - stepOf c u.stripped)
  size : u.big.length = beVal (p.take c.headLen) - stepOf c u.stripped
  hold : u.big.take (u.remain + got) = p.drop (stepOf c u.stripped)
  len : u.remain + got + stepOf c u.stripped = p.length
  lt : p.length < beVal (p.take c.headLen)

structure FlexRel (c : Cfg) (st : Bool) (k : Conn Flex) (p : Bytes) : Prop where
  str : k.u.stripped = st
  ph : ∃ got, k.ph = .reading (k.u.size - k.u.remain) got k.u.size ∧
    (FlexSmall c { k.u with remain := k.u.remain + got } p ∨ FlexBig c k.u got p)

theorem FlexBig.ne {c : Cfg} {u : Flex} {got : Nat} {p : Bytes} (h : FlexBig c u got p) : u.big ≠ [] := by
  intro h0
  have h1 := h.size
  have h2 := h.head.2.1
  have h3 := stepOf_le c u.stripped
  have h4 := c.headLen_le
  rw [h0] at h1
  simp [flexSize] at h1 h2
  omega

theorem FlexBig.pend {c : Cfg} {u : Flex} {got : Nat} {p : Bytes} (h : FlexBig c u got p) :
    frames c.headLen c.bufSize p = ([], .incomplete p) := by
  have h1 := h.head
  have h4 := c.headLen_le
  have := h1.2.1
  unfold flexSize at this
  exact frames_wait c.headLen_pos h1.1 (by have := h1.2.2; omega) h.lt

theorem flexSmall_lt {c : Cfg} (hv : c.Valid) {u : Flex} {p : Bytes} (h : FlexSmall c u p) : p.length < flexSize := by
  have hl0 := c.headLen_pos
  have hl4 := c.headLen_le
  have h1 : p.length ≤ flexSize := by rw [← h.hold, List.length_take, h.raw]; omega
  rcases Nat.lt_or_ge p.length c.headLen with h2 | h2
  · unfold flexSize; omega
  · have h3 := h.small h2
    have h4 := incomplete_valid hl0 h2 h.pend
    rcases Nat.lt_or_ge p.length (beVal (p.take c.headLen)) with h5 | h5
    · omega
    · have h6 := h.pend
      rw [frames_one hl0 h2 h4 h5] at h6
      simp at h6

theorem flex_start_small {c : Cfg} (hv : c.Valid) (junk : Nat → Bytes) {u : Flex} {p : Bytes} (h : FlexSmall c u p)
    (log : List RxEvent) :
    ∃ k, startRead (flexOps c junk) u log = some k ∧ k.log = log ∧ FlexRel c u.stripped k p := by
  have hl0 := c.headLen_pos
  have hlt := flexSmall_lt hv h
  have hs : u.size = flexSize := by simp [Flex.size, h.big]
  have hlen := h.len
  -- effect of the first evaluation of the condition
  obtain ⟨cur', hcond, hcur'⟩ : ∃ cur', Flex.cond c u 0 = some ({ u with cur := cur' }, flexSize) ∧ CurOk c cur' p := by
    have hn : ¬ (u.size < u.remain + 0) := by omega
    unfold Flex.cond
    simp only [hn, if_false]
    cases hc : u.cur with
    | none =>
      simp only
      by_cases h2 : c.headLen ≤ u.remain + 0
      · rw [if_pos h2, readAt_some (by rw [h.raw]; omega)]
        have hhead : (u.raw.drop 0).take c.headLen = p.take c.headLen := by
          rw [← h.hold, List.take_take, Nat.min_eq_left (by omega)]; simp
        simp only [hhead, Option.bind_eq_bind, Option.bind_some]
        have h4 := incomplete_valid hl0 (by omega) h.pend
        have h5 := h.small (by omega)
        have h6 : ¬ (beVal (p.take c.headLen) ≤ u.remain + 0) := by
          intro h6
          have h7 := h.pend
          rw [frames_one hl0 (by omega) h4 (by omega)] at h7
          simp at h7
        refine ⟨some (beVal (p.take c.headLen)), ?_, Or.inr ⟨by omega, rfl⟩⟩
        rw [if_neg (by omega), if_neg h6]
        simp [Flex.size, h.big]
      · rw [if_neg h2, hs]
        exact ⟨none, by simp [← hc], Or.inl rfl⟩
    | some n =>
      simp only
      rcases h.cur with hx | ⟨ha, hb⟩
      · rw [hc] at hx; simp at hx
      · rw [hc] at hb
        simp only [Option.some.injEq] at hb
        have h4 := incomplete_valid hl0 ha h.pend
        have h6 : ¬ (n ≤ u.remain + 0) := by
          intro h6
          have h7 := h.pend
          rw [frames_one hl0 ha h4 (by omega)] at h7
          simp at h7
        rw [if_neg h6, hs]
        refine ⟨some n, by simp [← hc], Or.inr ⟨ha, by rw [hb]⟩⟩
  have h0 : flexSize ≠ 0 := by decide
  refine ⟨{ u := { u with cur := cur' }, ph := .reading (flexSize - u.remain) 0 flexSize, log }, ?_, rfl, rfl, 0, ?_, ?_⟩
  · have h1 : u.remain < u.size := by omega
    have h2 : ¬ (u.size - u.remain = 0) := by omega
    rw [hs] at h1 h2
    simp only [startRead, flexOps, Flex.prepare, hs, h1, if_true, h2, hcond, h0, Option.bind_eq_bind, Option.bind_some, if_false]
    rfl
  · simp [Flex.size, h.big]
  · left
    exact ⟨h.raw, h.big, h.hold, h.len, hcur', h.pend, h.small⟩

theorem flex_start_big {c : Cfg} (junk : Nat → Bytes) {u : Flex} {p : Bytes} (h : FlexBig c u 0 p)
    (log : List RxEvent) :
    ∃ k, startRead (flexOps c junk) u log = some k ∧ k.log = log ∧ FlexRel c u.stripped k p := by
  have hne := h.ne
  have hs : u.size = u.big.length := by simp [Flex.size, hne]
  have h1 := h.size
  have h2 := h.len
  have h3 := h.lt
  have h4 := stepOf_le c u.stripped
  have h5 := c.headLen_le
  have h6 := h.head.2.1
  unfold flexSize at h6
  have hcond : Flex.cond c u 0 = some (u, u.size) := by
    have hn : ¬ (u.size < u.remain + 0) := by omega
    unfold Flex.cond
    simp only [hn, if_false, h.cur]
    rw [if_neg (by omega)]
  refine ⟨{ u := u, ph := .reading (u.size - u.remain) 0 u.size, log }, ?_, rfl, rfl, 0, rfl, Or.inr h⟩
  have h1 : u.remain < u.size := by omega
  have h2 : ¬ (u.size - u.remain = 0) := by omega
  have h7 : ¬ (u.size = 0) := by omega
  simp [startRead, flexOps, Flex.prepare, h1, h2, hcond, h7]

theorem flex_extend {c : Cfg} (junk : Nat → Bytes) (hj : ∀ n, (junk n).length = n) {u : Flex} {d : Bytes}
    (hraw : u.raw.length = flexSize) (hd : u.raw.take u.remain = d) (hlen : u.remain = d.length)
    (hcur : u.cur = some (beVal (d.take c.headLen))) (hb : BigHead c d) :
    ∃ u', Flex.extend c junk u = some u' ∧ u'.stripped = u.stripped ∧ FlexBig c u' 0 d := by
  obtain ⟨hb1, hb2, hb3⟩ := hb
  have h4 := stepOf_le c u.stripped
  have h5 := c.headLen_le
  have hle : d.length ≤ flexSize := by rw [← hd, List.length_take, hraw]; omega
  have hb2' := hb2
  unfold flexSize at hb2'
  have hstep : (if u.stripped then c.headLen else 0) = stepOf c u.stripped := rfl
  have hn : ¬ (beVal (d.take c.headLen) < stepOf c u.stripped ∨ u.remain < stepOf c u.stripped) := by omega
  generalize hN : beVal (d.take c.headLen) = N at *
  generalize hS : stepOf c u.stripped = S at *
  have hread : readAt u.raw S (u.remain - S) = some (d.drop S) := by
    rw [readAt_some (by omega), ← List.drop_take, hd]
  have hwr : writeAt (junk (N - S)) 0 (d.drop S) = some (d.drop S ++ (junk (N - S)).drop (d.drop S).length) := by
    rw [writeAt_some (by rw [hj, List.length_drop]; omega)]; simp
  have hdl : (d.drop S).length = u.remain - S := by rw [List.length_drop]; omega
  refine ⟨{ u with cur := some (N - S), remain := u.remain - S, big := d.drop S ++ (junk (N - S)).drop (d.drop S).length }, ?_, rfl, ?_⟩
  · simp only [Flex.extend, hstep, hcur, Option.bind_eq_bind, Option.bind_some, hn, if_false, hread, hwr]
    rfl
  · refine ⟨hraw, ⟨hb1, by rw [hN]; exact hb2, by rw [hN]; exact hb3⟩, ?_, ?_, ?_, ?_, ?_⟩ <;>
      simp only [hN, hS]
    · rw [List.length_append, List.length_drop, List.length_drop, hj]; omega
    · rw [Nat.add_zero, ← hdl]; simp
    · omega
    · omega

/-- The result of a completed read on the fixed buffer. -/
theorem flex_recv_small {c : Cfg} (hv : c.Valid) (junk : Nat → Bytes) (hj : ∀ n, (junk n).length = n) (k : Conn Flex) (got : Nat)
    (d : Bytes) (hraw : k.u.raw.length = flexSize) (hbig : k.u.big = []) (hd : k.u.raw.take (k.u.remain + got) = d)
    (hlen : k.u.remain + got = d.length) (hcur : CurOk c k.u.cur d)
    (hdone : frames c.headLen c.bufSize d ≠ ([], .incomplete d) ∨ BigHead c d) :
    ∃ k', recvHandler (flexOps c junk) k got = some k' ∧
      match frameDec c.headLen c.bufSize k.u.stripped d with
      | (ms, some p') => k'.log = k.log ++ msgs ms ∧ FlexRel c k.u.stripped k' p'
      | (ms, none) => k'.log = k.log ++ msgs ms ++ [.unpackError] ∧ FlexRel c k.u.stripped k' [] := by
  obtain ⟨⟨raw, big, cur, remain, st⟩, ph, log⟩ := k
  simp only at *
  subst hbig
  have hl0 := c.headLen_pos
  have hl4 := c.headLen_le
  have hle : d.length ≤ flexSize := by rw [← hd, List.length_take, hraw]; omega
  -- after lines 247-252
  obtain ⟨cur', hpre, hcur', hknown⟩ : ∃ cur',
      Flex.peekHead c { raw, big := [], cur, remain := remain + got, stripped := st } = some { raw, big := [], cur := cur', remain := remain + got, stripped := st } ∧
      CurOk c cur' d ∧ (c.headLen ≤ d.length → cur' = some (beVal (d.take c.headLen))) := by
    unfold Flex.peekHead
    simp only
    cases hc : cur with
    | some n =>
      rcases hcur with hx | ⟨ha, hb⟩
      · rw [hc] at hx; simp at hx
      · refine ⟨some n, by simp [← hc], ?_, ?_⟩
        · rw [hc] at hb; exact Or.inr ⟨ha, hb⟩
        · intro _; rw [hc] at hb; exact hb
    | none =>
      simp only
      by_cases h2 : c.headLen ≤ remain + got
      · have hhead : (raw.drop 0).take c.headLen = d.take c.headLen := by
          rw [← hd, List.take_take, Nat.min_eq_left (by omega)]; simp
        rw [if_pos h2, readAt_some (by rw [hraw]; omega), hhead]
        exact ⟨some (beVal (d.take c.headLen)), rfl, Or.inr ⟨by omega, rfl⟩, fun _ => rfl⟩
      · rw [if_neg h2]
        exact ⟨none, by simp [← hc], Or.inl rfl, by omega⟩
  have hnsz : ¬ (Flex.size { raw, big := [], cur, remain := remain + got, stripped := st } < remain + got) := by
    simp only [Flex.size, if_true]; omega
  by_cases hB : BigHead c d
  · -- big message: switch to the dynamic buffer
    have hc' := hknown hB.1
    have hfr : frames c.headLen c.bufSize d = ([], .incomplete d) := by
      obtain ⟨h1, h2, h3⟩ := hB
      unfold flexSize at *
      exact frames_wait hl0 h1 (by omega) (by omega)
    obtain ⟨u', hext, hst, hFB⟩ := flex_extend junk hj (u := { raw, big := [], cur := cur', remain := remain + got, stripped := st }) (d := d) (c := c)
      hraw hd hlen hc' hB
    have hparse : Flex.parse c junk { raw, big := [], cur, remain, stripped := st } got = some (u', [], true) := by
      have hisBig : beVal (d.take c.headLen) ≤ c.bufSize ∧ flexSize < beVal (d.take c.headLen) := ⟨hB.2.2, hB.2.1⟩
      unfold Flex.parse
      simp only [hnsz, if_false, ne_eq, not_true, hpre, Option.bind_eq_bind, Option.bind_some, hc', Option.any_some, hisBig, and_self, decide_true, if_true]
      rw [hc'] at hext
      simp only [hext, Option.bind_some]
      rfl
    obtain ⟨k', hk', hlog, hrel⟩ := flex_start_big junk hFB log
    refine ⟨k', ?_, ?_⟩
    · simp only [recvHandler, flexOps, hparse, Option.bind_eq_bind, Option.bind_some, if_true, List.map_nil, List.append_nil]
      exact hk'
    · simp only [frameDec, hfr, visible, List.filter_nil, List.map_nil]
      rw [hst] at hrel
      exact ⟨by simp [hlog, msgs], hrel⟩
  · have hne : frames c.headLen c.bufSize d ≠ ([], .incomplete d) := hdone.resolve_right hB
    obtain ⟨b, ok, hbody, hbl, hbst, hm⟩ := parseBody_spec c
      { raw := raw, cur := cur', remain := remain + got, stripped := st } d hd (by simp only [hraw]; omega) hcur'
    have hrest := frames_rest c.headLen c.bufSize d
    have hflat := frames_flatten c.headLen c.bufSize d
    have hnotbig : cur'.any (fun n => decide (n ≤ c.bufSize ∧ flexSize < n)) = false := by
      rcases hcur' with hx | ⟨ha, hb⟩
      · simp [hx]
      · simp only [hb, Option.any_some, decide_eq_false_iff_not]
        intro ⟨h1, h2⟩
        exact hB ⟨ha, h2, h1⟩
    have hparse : Flex.parse c junk { raw, big := [], cur, remain, stripped := st } got =
        (do
          if ok && b.cur.any (fun n => decide (flexSize < n)) then return (← Flex.extend c junk { raw := b.raw, big := [], cur := b.cur, remain := b.remain, stripped := st }, visible c.headLen st (frames c.headLen c.bufSize d).1, ok)
          else return ({ raw := b.raw, big := [], cur := b.cur, remain := b.remain, stripped := st }, visible c.headLen st (frames c.headLen c.bufSize d).1, ok)) := by
      unfold Flex.parse
      simp only [hnsz, if_false, ne_eq, not_true, hpre, Option.bind_eq_bind, Option.bind_some, hnotbig, Bool.false_eq_true, hbody]
    unfold frameDec
    generalize hF : frames c.headLen c.bufSize d = F at *
    obtain ⟨fs, tl⟩ := F
    simp only at hm hparse hrest hflat ⊢
    have hbl' : b.raw.length = flexSize := by rw [hbl]; exact hraw
    cases tl with
    | incomplete r =>
      simp only at hm
      obtain ⟨h1, h2, h3, h4, h5⟩ := hm
      have hok : ok = true := by
        rw [h3]; intro h0; subst h0
        apply hne
        have : r = d := by simpa [Tail.rest] using hflat
        rw [this]
      subst hok
      have hrle : r.length ≤ d.length := by rw [← hflat]; simp [Tail.rest]
      by_cases hB' : BigHead c r
      · have hbc : b.cur = some (beVal (r.take c.headLen)) := by
          rcases h2 with h2 | ⟨_, h2⟩
          · exact absurd h2 (h5 hB'.1)
          · exact h2
        obtain ⟨u', hext, hst, hFB⟩ := flex_extend junk hj (u := { raw := b.raw, big := [], cur := b.cur, remain := b.remain, stripped := st }) (d := r) (c := c)
          hbl' h1 h4 hbc hB'
        obtain ⟨k', hk', hlog, hrel⟩ := flex_start_big junk hFB (log ++ msgs (visible c.headLen st fs))
        refine ⟨k', ?_, hlog, by rw [hst] at hrel; exact hrel⟩
        have hp : Flex.parse c junk { raw, big := [], cur, remain, stripped := st } got = some (u', visible c.headLen st fs, true) := by
          rw [hparse]
          rw [hbc] at hext ⊢
          simp only [Option.any_some, Bool.true_and, decide_eq_true hB'.2.1, if_true, hext, Option.bind_eq_bind, Option.bind_some]
          rfl
        simp only [recvHandler, flexOps, hp, Option.bind_eq_bind, Option.bind_some, if_true]
        exact hk'
      · have hnb : (true && b.cur.any (fun n => decide (flexSize < n))) = false := by
          rcases h2 with h2 | ⟨ha, h2⟩
          · simp [h2]
          · have hval := incomplete_valid hl0 ha (hrest r rfl)
            simp only [h2, Option.any_some, Bool.true_and, decide_eq_false_iff_not]
            intro h6
            exact hB' ⟨ha, h6, by omega⟩
        have hsm : FlexSmall c { raw := b.raw, big := [], cur := b.cur, remain := b.remain, stripped := st } r := by
          refine ⟨hbl', rfl, h1, h4, h2, hrest r rfl, ?_⟩
          intro h6
          have hval := incomplete_valid hl0 h6 (hrest r rfl)
          rcases Nat.lt_or_ge flexSize (beVal (r.take c.headLen)) with h7 | h7
          · exact absurd ⟨h6, h7, by omega⟩ hB'
          · exact h7
        obtain ⟨k', hk', hlog, hrel⟩ := flex_start_small hv junk hsm (log ++ msgs (visible c.headLen st fs))
        refine ⟨k', ?_, hlog, hrel⟩
        have hp : Flex.parse c junk { raw, big := [], cur, remain, stripped := st } got = some ({ raw := b.raw, big := [], cur := b.cur, remain := b.remain, stripped := st }, visible c.headLen st fs, true) := by
          rw [hparse]
          simp only [hnb, Bool.false_eq_true, if_false]
          rfl
        simp only [recvHandler, flexOps, hp, Option.bind_eq_bind, Option.bind_some, if_true]
        exact hk'
    | bad r =>
      simp only at hm
      obtain ⟨rfl, _⟩ := hm
      have hsm : FlexSmall c (Flex.reset { raw := b.raw, big := [], cur := b.cur, remain := b.remain, stripped := st }) [] :=
        ⟨hbl', rfl, by simp [Flex.reset], rfl, Or.inl rfl, frames_short (by simpa using hl0), by intro h; simp at h; omega⟩
      obtain ⟨k', hk', hlog, hrel⟩ := flex_start_small hv junk hsm (log ++ msgs (visible c.headLen st fs) ++ [.unpackError])
      refine ⟨k', ?_, hlog, hrel⟩
      have hp : Flex.parse c junk { raw, big := [], cur, remain, stripped := st } got = some ({ raw := b.raw, big := [], cur := b.cur, remain := b.remain, stripped := st }, visible c.headLen st fs, false) := by
        rw [hparse]
        simp only [Bool.false_and, Bool.false_eq_true, if_false]
        rfl
      simp only [recvHandler, flexOps, hp, Option.bind_eq_bind, Option.bind_some]
      exact hk'

/-- The completion condition on the fixed buffer. -/
theorem flex_cond_small {c : Cfg} (u : Flex) (got : Nat) (d : Bytes) (hraw : u.raw.length = flexSize) (hbig : u.big = [])
    (hd : u.raw.take (u.remain + got) = d) (hlen : u.remain + got = d.length) (hcur : CurOk c u.cur d)
    (hval : ∀ n, u.cur = some n → ¬ (n < c.headLen ∨ c.bufSize < n) ∧ n ≤ flexSize) :
    ∃ cur' want, Flex.cond c u got = some ({ u with cur := cur' }, want) ∧ CurOk c cur' d ∧
      (want = 0 ∧ (frames c.headLen c.bufSize d ≠ ([], .incomplete d) ∨ BigHead c d) ∨
       want = flexSize ∧ frames c.headLen c.bufSize d = ([], .incomplete d) ∧ (c.headLen ≤ d.length → beVal (d.take c.headLen) ≤ flexSize)) := by
  have hl0 := c.headLen_pos
  have hl4 := c.headLen_le
  have hle : d.length ≤ flexSize := by rw [← hd, List.length_take, hraw]; omega
  have hs : u.size = flexSize := by simp [Flex.size, hbig]
  have hn : ¬ (u.size < u.remain + got) := by omega
  unfold Flex.cond
  simp only [hn, if_false]
  cases hc : u.cur with
  | none =>
    simp only
    by_cases h2 : c.headLen ≤ u.remain + got
    · have hhead : (u.raw.drop 0).take c.headLen = d.take c.headLen := by
        rw [← hd, List.take_take, Nat.min_eq_left (by omega)]; simp
      rw [if_pos h2, readAt_some (by rw [hraw]; omega)]
      simp only [hhead, Option.bind_eq_bind, Option.bind_some]
      by_cases h3 : c.bufSize < beVal (d.take c.headLen) ∨ beVal (d.take c.headLen) < c.headLen
      · rw [if_pos (by omega)]
        refine ⟨_, _, rfl, Or.inr ⟨by omega, rfl⟩, Or.inl ⟨rfl, Or.inl ?_⟩⟩
        rw [frames_badHead hl0 (by omega) (by omega)]; simp
      · by_cases h4 : flexSize < beVal (d.take c.headLen)
        · rw [if_pos (by omega)]
          exact ⟨_, _, rfl, Or.inr ⟨by omega, rfl⟩, Or.inl ⟨rfl, Or.inr ⟨by omega, h4, by omega⟩⟩⟩
        · rw [if_neg (by omega)]
          by_cases h5 : beVal (d.take c.headLen) ≤ u.remain + got
          · rw [if_pos h5]
            refine ⟨_, _, rfl, Or.inr ⟨by omega, rfl⟩, Or.inl ⟨rfl, Or.inl ?_⟩⟩
            rw [frames_one hl0 (by omega) (by omega) (by omega)]; simp
          · rw [if_neg h5]
            refine ⟨_, _, rfl, Or.inr ⟨by omega, rfl⟩, Or.inr ⟨by simp [Flex.size, hbig], ?_, by omega⟩⟩
            exact frames_wait hl0 (by omega) (by omega) (by omega)
    · rw [if_neg h2]
      exact ⟨none, _, by rw [← hc], Or.inl rfl, Or.inr ⟨hs, frames_short (by omega), by omega⟩⟩
  | some n =>
    simp only
    rcases hcur with hx | ⟨ha, hb⟩
    · rw [hc] at hx; simp at hx
    · rw [hc] at hb
      simp only [Option.some.injEq] at hb
      obtain ⟨hv1, hv2⟩ := hval n hc
      refine ⟨some n, _, by rw [← hc], Or.inr ⟨ha, by rw [hb]⟩, ?_⟩
      by_cases h5 : n ≤ u.remain + got
      · refine Or.inl ⟨by rw [if_pos h5], Or.inl ?_⟩
        rw [frames_one hl0 ha (by omega) (by omega)]; simp
      · refine Or.inr ⟨by rw [if_neg h5, hs], ?_, by omega⟩
        exact frames_wait hl0 ha (by omega) (by omega)

/-- The result of a completed read on the dynamic buffer. -/
theorem flex_recv_big {c : Cfg} (hv : c.Valid) (junk : Nat → Bytes) (k : Conn Flex) (got : Nat) (d : Bytes)
    (hraw : k.u.raw.length = flexSize) (hB : BigHead c d) (hlen : d.length = beVal (d.take c.headLen))
    (hbig : k.u.big = d.drop (stepOf c k.u.stripped)) (hrem : k.u.remain + got = k.u.big.length) :
    ∃ k', recvHandler (flexOps c junk) k got = some k' ∧
      match frameDec c.headLen c.bufSize k.u.stripped d with
      | (ms, some p') => k'.log = k.log ++ msgs ms ∧ FlexRel c k.u.stripped k' p'
      | (ms, none) => k'.log = k.log ++ msgs ms ++ [.unpackError] ∧ FlexRel c k.u.stripped k' [] := by
  have hl0 := c.headLen_pos
  have hl4 := c.headLen_le
  obtain ⟨hB1, hB2, hB3⟩ := hB
  have hB2' := hB2
  unfold flexSize at hB2'
  have hst := stepOf_le c k.u.stripped
  have hbl : k.u.big.length = d.length - stepOf c k.u.stripped := by rw [hbig, List.length_drop]
  have hne : k.u.big ≠ [] := by intro h; rw [h] at hbl; simp at hbl; omega
  have hfr : frames c.headLen c.bufSize d = ([d], .incomplete []) := by
    rw [frames_one hl0 hB1 (by omega) (by omega), ← hlen]
    simp [frames_short (s := []) (hl := c.headLen) (maxLen := c.bufSize) (by simpa using hl0)]
  have hvis : visible c.headLen k.u.stripped [d] = [k.u.big] := by
    have : c.headLen < d.length := by omega
    rw [hbig]
    simp only [visible, List.filter_cons, this, decide_true, if_true, List.filter_nil, List.map_cons, List.map_nil]
    cases k.u.stripped <;> simp [stepOf]
  have hparse : Flex.parse c junk k.u got = some (Flex.reset { k.u with remain := k.u.remain + got }, [k.u.big], true) := by
    have hn : ¬ (Flex.size { k.u with remain := k.u.remain + got } < k.u.remain + got) := by
      simp only [Flex.size, hne, if_false]; omega
    unfold Flex.parse
    simp only
    rw [if_neg hn, if_pos hne, if_neg (by simpa using hrem)]
  have hsm : FlexSmall c (Flex.reset { k.u with remain := k.u.remain + got }) [] :=
    ⟨hraw, rfl, by simp [Flex.reset], rfl, Or.inl rfl, frames_short (by simpa using hl0), by intro h; simp at h; omega⟩
  obtain ⟨k', hk', hlog, hrel⟩ := flex_start_small hv junk hsm (k.log ++ msgs [k.u.big])
  refine ⟨k', ?_, ?_⟩
  · simp only [recvHandler, flexOps, hparse, Option.bind_eq_bind, Option.bind_some, if_true]
    exact hk'
  · simp only [frameDec, hfr, hvis]
    exact ⟨hlog, hrel⟩

theorem flex_step_out {c : Cfg} {st : Bool} {k k' : Conn Flex} {d : Bytes} (hstr : k.u.stripped = st) {log : List RxEvent} (hlog : k.log = log)
    (hm : match frameDec c.headLen c.bufSize k.u.stripped d with
      | (ms, some p') => k'.log = k.log ++ msgs ms ∧ FlexRel c k.u.stripped k' p'
      | (ms, none) => k'.log = k.log ++ msgs ms ++ [.unpackError] ∧ FlexRel c k.u.stripped k' []) :
    match frameDec c.headLen c.bufSize st d with
      | (ms, some p') => k'.log = log ++ msgs ms ∧ FlexRel c st k' p'
      | (ms, none) => k'.log = log ++ msgs ms ++ [.unpackError] ∧ FlexRel c st k' [] := by
  subst hstr; subst hlog; exact hm

theorem flex_simulates (c : Cfg) (hv : c.Valid) (junk : Nat → Bytes) (hj : ∀ n, (junk n).length = n) (st cwf : Bool) :
    Simulates (flexOps c junk) cwf (frameDec c.headLen c.bufSize st) (FlexRel c st) where
  reading := by
    intro k p h
    obtain ⟨got, h1, h2⟩ := h.ph
    refine ⟨_, _, _, h1, ?_⟩
    rcases h2 with h2 | h2
    · have h3 := flexSmall_lt hv h2
      have h4 := h2.len
      have h5 := h2.big
      simp only at h4 h5
      simp only [Flex.size, h5, if_true]; omega
    · have h3 := h2.ne
      have := h2.size; have := h2.len; have := h2.lt; have := stepOf_le c k.u.stripped; have := h2.head.1
      simp only [Flex.size, h3, if_false]; omega
  step := by
    intro k p cap got want d hR hph hne hdw hdc
    have hl0 := c.headLen_pos
    have hl4 := c.headLen_le
    obtain ⟨got', h1, hmode⟩ := hR.ph
    rw [hph] at h1
    simp only [RxPhase.reading.injEq] at h1
    obtain ⟨rfl, rfl, rfl⟩ := h1
    have hdl : 0 < d.length := List.length_pos_iff.mpr hne
    have hstr := hR.str
    rcases hmode with hS | hB
    · -- fixed buffer
      have hraw := hS.raw
      have hbig := hS.big
      have hhold := hS.hold
      have hlen := hS.len
      have hcurp := hS.cur
      simp only at hraw hbig hhold hlen hcurp
      have hsz : k.u.size = flexSize := by simp [Flex.size, hbig]
      rw [hsz] at hdc hph hdw ⊢
      have hplt := flexSmall_lt hv hS
      have hw : writeAt k.u.raw (k.u.remain + got) d =
          some (k.u.raw.take (k.u.remain + got) ++ d ++ k.u.raw.drop (k.u.remain + got + d.length)) := writeAt_some (by omega)
      generalize hraw' : k.u.raw.take (k.u.remain + got) ++ d ++ k.u.raw.drop (k.u.remain + got + d.length) = raw' at hw
      have hwt := writeAt_take hw
      rw [hhold] at hwt
      have hrl : raw'.length = flexSize := by rw [hwt.1, hraw]
      have hcur : CurOk c k.u.cur (p ++ d) := by
        rcases hcurp with h | ⟨ha, hb⟩
        · exact Or.inl h
        · refine Or.inr ⟨by simp; omega, ?_⟩
          rw [List.take_append_of_le_length ha]; exact hb
      have hcv : ∀ n, k.u.cur = some n → ¬ (n < c.headLen ∨ c.bufSize < n) ∧ n ≤ flexSize := by
        intro n hn
        rcases hcurp with hc | ⟨h1, h2⟩
        · rw [hc] at hn; simp at hn
        · rw [h2] at hn; simp at hn; subst hn
          exact ⟨incomplete_valid hl0 h1 hS.pend, hS.small h1⟩
      have hd' : raw'.take (k.u.remain + (got + d.length)) = p ++ d := by rw [← Nat.add_assoc]; exact hwt.2
      have hl' : k.u.remain + (got + d.length) = (p ++ d).length := by simp; omega
      obtain ⟨cur', want', hcond, hcur', hwant⟩ := flex_cond_small { k.u with raw := raw' } (got + d.length) (p ++ d) hrl hbig hd' hl' hcur hcv
      have hwr : (flexOps c junk).write k.u got d = some { k.u with raw := raw' } := by
        simp [flexOps, Flex.write, hbig, hw]
      have hcond' : (flexOps c junk).cond { k.u with raw := raw' } (got + d.length) =
          some ({ k.u with raw := raw', cur := cur' }, want') := hcond
      have hfull : got + d.length = flexSize - k.u.remain →
          (frames c.headLen c.bufSize (p ++ d) ≠ ([], .incomplete (p ++ d)) ∨ BigHead c (p ++ d)) := by
        intro hf
        rcases hwant with ⟨_, h⟩ | ⟨_, h1, h2⟩
        · exact h
        · exfalso
          have hS' : FlexSmall c { k.u with raw := raw', remain := k.u.remain + (got + d.length) } (p ++ d) :=
            ⟨hrl, hbig, hd', hl', hcur, h1, h2⟩
          have := flexSmall_lt hv hS'
          omega
      by_cases hf : got + d.length = flexSize - k.u.remain
      · cases cwf with
        | false =>
          obtain ⟨k', hk', hm⟩ := flex_recv_small hv junk hj { k with u := { k.u with raw := raw' } } (got + d.length) (p ++ d) hrl hbig hd' hl'
            hcur (hfull hf)
          refine ⟨k', ?_, flex_step_out (k := { k with u := { k.u with raw := raw' } }) hstr rfl hm⟩
          simp only [readSome, hwr, Option.bind_eq_bind, Option.bind_some, hf, if_true, Bool.false_eq_true, if_false]
          rw [← hf]; exact hk'
        | true =>
          obtain ⟨k', hk', hm⟩ := flex_recv_small hv junk hj { k with u := { k.u with raw := raw', cur := cur' } } (got + d.length) (p ++ d) hrl hbig hd' hl'
            hcur' (hfull hf)
          refine ⟨k', ?_, flex_step_out (k := { k with u := { k.u with raw := raw', cur := cur' } }) hstr rfl hm⟩
          simp only [readSome, hwr, Option.bind_eq_bind, Option.bind_some, hf, if_true]
          rw [← hf, hcond']; exact hk'
      · rcases hwant with ⟨hw0, hnf⟩ | ⟨hwb, hinc, hsm⟩
        · obtain ⟨k', hk', hm⟩ := flex_recv_small hv junk hj { k with u := { k.u with raw := raw', cur := cur' } } (got + d.length) (p ++ d) hrl hbig hd' hl'
            hcur' hnf
          refine ⟨k', ?_, flex_step_out (k := { k with u := { k.u with raw := raw', cur := cur' } }) hstr rfl hm⟩
          simp only [readSome, hwr, Option.bind_eq_bind, Option.bind_some, hf, if_false, hcond', hw0, if_true]
          exact hk'
        · have hb0 : ¬ (flexSize = 0) := by decide
          refine ⟨{ k with u := { k.u with raw := raw', cur := cur' }, ph := .reading (flexSize - k.u.remain) (got + d.length) flexSize }, ?_, ?_⟩
          · simp only [readSome, hwr, Option.bind_eq_bind, Option.bind_some, hf, if_false, hcond', hwb, hb0, Option.pure_def]
          · simp only [frameDec, hinc]
            refine ⟨by simp [msgs, visible], hstr, got + d.length, ?_, Or.inl ⟨hrl, hbig, hd', hl', hcur', hinc, hsm⟩⟩
            simp [Flex.size, hbig]
    · -- dynamic buffer
      have hbne := hB.ne
      have hsz : k.u.size = k.u.big.length := by simp [Flex.size, hbne]
      have hsize := hB.size
      have hlenp := hB.len
      have hltp := hB.lt
      have hstl := stepOf_le c k.u.stripped
      obtain ⟨hB1, hB2, hB3⟩ := hB.head
      have hB2' := hB2
      unfold flexSize at hB2'
      have ht : (p ++ d).take c.headLen = p.take c.headLen := List.take_append_of_le_length hB1
      have hB' : BigHead c (p ++ d) := ⟨by simp; omega, by rw [ht]; exact hB2, by rw [ht]; exact hB3⟩
      rw [hsz] at hdc hph hdw ⊢
      have hw : writeAt k.u.big (k.u.remain + got) d =
          some (k.u.big.take (k.u.remain + got) ++ d ++ k.u.big.drop (k.u.remain + got + d.length)) := writeAt_some (by omega)
      generalize hbig' : k.u.big.take (k.u.remain + got) ++ d ++ k.u.big.drop (k.u.remain + got + d.length) = big' at hw
      have hwt := writeAt_take hw
      rw [hB.hold] at hwt
      have hbl : big'.length = k.u.big.length := hwt.1
      have hbne' : big' ≠ [] := by
        intro h; rw [h] at hbl; simp at hbl; exact hbne (List.length_eq_zero_iff.mp hbl.symm)
      have hhold' : big'.take (k.u.remain + (got + d.length)) = (p ++ d).drop (stepOf c k.u.stripped) := by
        rw [← Nat.add_assoc, hwt.2, List.drop_append_of_le_length (by omega)]
      have hwr : (flexOps c junk).write k.u got d = some { k.u with big := big' } := by
        simp [flexOps, Flex.write, hbne, hw]
      have hcond : (flexOps c junk).cond { k.u with big := big' } (got + d.length) =
          some ({ k.u with big := big' }, if k.u.big.length ≤ k.u.remain + (got + d.length) then 0 else k.u.big.length) := by
        have hn : ¬ (Flex.size { k.u with big := big' } < k.u.remain + (got + d.length)) := by
          simp only [Flex.size, hbne', if_false]; omega
        have hcur := hB.cur
        rw [← hsize] at hcur
        show Flex.cond c { k.u with big := big' } (got + d.length) = _
        have hs' : Flex.size { k.u with big := big' } = k.u.big.length := by simp [Flex.size, hbne', hbl]
        unfold Flex.cond
        simp only
        rw [if_neg hn, hs']
        simp only [hcur]
      by_cases hf : got + d.length = k.u.big.length - k.u.remain
      · have hfulld : (p ++ d).length = beVal ((p ++ d).take c.headLen) := by rw [ht]; simp; omega
        obtain ⟨k', hk', hm⟩ := flex_recv_big hv junk { k with u := { k.u with big := big' } } (got + d.length) (p ++ d) hB.raw hB' hfulld
          (by rw [← hhold', List.take_of_length_le (by omega)]) (by simp only; omega)
        refine ⟨k', ?_, flex_step_out (k := { k with u := { k.u with big := big' } }) hstr rfl hm⟩
        cases cwf with
        | false =>
          simp only [readSome, hwr, Option.bind_eq_bind, Option.bind_some, hf, if_true, Bool.false_eq_true, if_false]
          rw [← hf]; exact hk'
        | true =>
          simp only [readSome, hwr, Option.bind_eq_bind, Option.bind_some, hf, if_true]
          rw [← hf, hcond]; exact hk'
      · have hb0 : ¬ (k.u.big.length = 0) := by omega
        have hnw : ¬ (k.u.big.length ≤ k.u.remain + (got + d.length)) := by omega
        have hFB : FlexBig c { k.u with big := big' } (got + d.length) (p ++ d) := by
          refine ⟨hB.raw, hB', by rw [ht]; exact hB.cur, by rw [ht]; simp only; omega, hhold', ?_, ?_⟩
          · simp only [List.length_append]; omega
          · rw [ht]; simp only [List.length_append]; omega
        refine ⟨{ k with u := { k.u with big := big' }, ph := .reading (k.u.big.length - k.u.remain) (got + d.length) k.u.big.length }, ?_, ?_⟩
        · simp only [readSome, hwr, Option.bind_eq_bind, Option.bind_some, hf, if_false, hcond, hnw, hb0, Option.pure_def]
        · simp only [frameDec, hFB.pend]
          refine ⟨by simp [msgs, visible], hstr, got + d.length, ?_, Or.inr hFB⟩
          simp [Flex.size, hbne', hbl]

theorem flex_start (c : Cfg) (hv : c.Valid) (junk : Nat → Bytes) (raw : Bytes) (hraw : raw.length = flexSize) (st : Bool) :
    ∃ c0, startRead (flexOps c junk) (Flex.init raw st) [] = some c0 ∧ c0.log = [] ∧ FlexRel c st c0 [] := by
  have hl0 := c.headLen_pos
  exact flex_start_small hv junk (u := Flex.init raw st) (p := [])
    ⟨hraw, rfl, by simp [Flex.init], rfl, Or.inl rfl, frames_short (by simpa using hl0), by intro h; simp at h; omega⟩ []

end StAsio
