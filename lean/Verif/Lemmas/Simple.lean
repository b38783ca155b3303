import Verif.Model.Simple
import Verif.Spec.Chunks
import Verif.Lemmas.Unpacker
set_option autoImplicit false
namespace StAsio

/-! ### non_copy_unpacker -/

structure NonCopyRel (c : Cfg) (k : Conn NonCopy) (p : Bytes) : Prop where
  head : k.u.head.length = c.headLen
  mode : ∃ got,
    (k.u.step = 0 ∧ k.u.raw = [] ∧ k.ph = .reading c.headLen got c.headLen ∧ k.u.head.take got = p ∧ got = p.length ∧ got < c.headLen) ∨
    (k.u.step = 1 ∧ c.headLen ≤ p.length ∧ p.length < beVal (p.take c.headLen) ∧ beVal (p.take c.headLen) ≤ c.bufSize ∧
      k.u.raw.length = beVal (p.take c.headLen) - c.headLen ∧ k.ph = .reading k.u.raw.length got k.u.raw.length ∧
      k.u.raw.take got = p.drop c.headLen ∧ c.headLen + got = p.length)

theorem nonCopy_start0 (c : Cfg) (junk : Nat → Bytes) (head : Bytes) (hh : head.length = c.headLen) (log : List RxEvent) :
    ∃ k, startRead (nonCopyOps c junk) { head, raw := [], step := 0 } log = some k ∧ k.log = log ∧ NonCopyRel c k [] := by
  have hl0 := c.headLen_pos
  have h0 : ¬ (c.headLen = 0) := by omega
  refine ⟨{ u := { head, raw := [], step := 0 }, ph := .reading c.headLen 0 c.headLen, log }, ?_, rfl, hh, 0, Or.inl ⟨rfl, rfl, rfl, by simp, rfl, hl0⟩⟩
  simp [startRead, nonCopyOps, NonCopy.prepare, NonCopy.cond, h0]

theorem nonCopy_start1 (c : Cfg) (junk : Nat → Bytes) (head raw p : Bytes) (hh : head.length = c.headLen) (log : List RxEvent)
    (h1 : p.length = c.headLen) (h2 : c.headLen < beVal (p.take c.headLen)) (h3 : beVal (p.take c.headLen) ≤ c.bufSize)
    (h4 : raw.length = beVal (p.take c.headLen) - c.headLen) :
    ∃ k, startRead (nonCopyOps c junk) { head, raw, step := 1 } log = some k ∧ k.log = log ∧ NonCopyRel c k p := by
  have hr : raw ≠ [] := by intro h; rw [h] at h4; simp at h4; omega
  have hr0 : raw.length ≠ 0 := by intro h; exact hr (List.length_eq_zero_iff.mp h)
  refine ⟨{ u := { head, raw, step := 1 }, ph := .reading raw.length 0 raw.length, log }, ?_, rfl, hh, 0,
    Or.inr ⟨rfl, by omega, by omega, h3, h4, rfl, ?_, by omega⟩⟩
  · simp [startRead, nonCopyOps, NonCopy.prepare, NonCopy.cond, hr]
  · rw [List.drop_of_length_le (by omega)]; simp

theorem wrap_sub (n k : Nat) (hn : n < 2 ^ 64) (hk : k ≤ 2 ^ 64) :
    (n + 2 ^ 64 - k) % 2 ^ 64 = if k ≤ n then n - k else n + 2 ^ 64 - k := by
  split <;> omega

theorem nonCopy_simulates (c : Cfg) (hv : c.Valid) (junk : Nat → Bytes) (hj : ∀ n, (junk n).length = n) (cwf : Bool) :
    Simulates (nonCopyOps c junk) cwf (frameDec c.headLen c.bufSize true) (NonCopyRel c) where
  reading := by
    intro k p h
    have hl0 := c.headLen_pos
    obtain ⟨got, hm | hm⟩ := h.mode
    · obtain ⟨_, _, h1, _, _, h2⟩ := hm
      exact ⟨_, _, _, h1, hl0, h2⟩
    · obtain ⟨_, _, h2, _, h4, h5, _, h7⟩ := hm
      exact ⟨_, _, _, h5, by omega, by omega⟩
  step := by
    intro k p cap got want d hR hph hne hdw hdc
    have hl0 := c.headLen_pos
    have hl4 : c.headLen ≤ 4 := by unfold Cfg.headLen; split <;> omega
    have hv1 := hv.1
    have hv2 := hv.2
    have hdl : 0 < d.length := List.length_pos_iff.mpr hne
    obtain ⟨⟨head, raw, step⟩, ph, log⟩ := k
    have hhl := hR.head
    obtain ⟨got', hm | hm⟩ := hR.mode
    · -- reading the head
      obtain ⟨h1, h2, h3, h4, h5, h6⟩ := hm
      simp only at h1 h2 h3 h4 hph hhl
      rw [h3] at hph
      simp only [RxPhase.reading.injEq] at hph
      obtain ⟨rfl, rfl, rfl⟩ := hph
      subst h1 h2
      have hw : writeAt head got' d = some (head.take got' ++ d ++ head.drop (got' + d.length)) := writeAt_some (by omega)
      generalize hhd : head.take got' ++ d ++ head.drop (got' + d.length) = head' at hw
      have hwt := writeAt_take hw
      rw [h4] at hwt
      have hwr : (nonCopyOps c junk).write { head, raw := [], step := 0 } got' d = some { head := head', raw := [], step := 0 } := by
        simp [nonCopyOps, NonCopy.write, hw]
      have hcond : ∀ n, (nonCopyOps c junk).cond { head := head', raw := [], step := 0 } n = some ({ head := head', raw := [], step := 0 }, c.headLen) := by
        intro n; simp [nonCopyOps, NonCopy.cond]
      by_cases hf : got' + d.length = c.headLen
      · -- head complete
        have hhead' : head' = p ++ d := by rw [← hwt.2, List.take_of_length_le (by omega)]
        have hpl : (p ++ d).length = c.headLen := by simp; omega
        have hread : readSome (nonCopyOps c junk) cwf { u := { head, raw := [], step := 0 }, ph, log } c.headLen got' d =
            recvHandler (nonCopyOps c junk) { u := { head := head', raw := [], step := 0 }, ph, log } c.headLen := by
          cases cwf <;> simp [readSome, hwr, hf, hcond]
        have ht : (p ++ d).take c.headLen = p ++ d := List.take_of_length_le (by omega)
        have hnlt : beVal head' < 2 ^ 64 := by
          have hx := beVal_lt head'
          have : head'.length ≤ 4 := by rw [hhead']; omega
          have : 256 ^ head'.length ≤ 256 ^ 4 := Nat.pow_le_pow_right (by omega) this
          omega
        generalize hN : beVal head' = N at *
        have hNp : beVal (p ++ d) = N := by rw [← hhead', hN]
        rw [hread]
        have hwrap := wrap_sub N c.headLen hnlt (by omega)
        by_cases hbad : N < c.headLen ∨ c.bufSize < N
        · have hfr := frames_badHead (maxLen := c.bufSize) (s := p ++ d) hl0 (by omega) (by rw [ht, hNp]; exact hbad)
          have hparse : NonCopy.parse c junk { head := head', raw := [], step := 0 } c.headLen =
              some ({ head := head', raw := [], step := 0 }, [], false) := by
            have hx : c.bufSize - c.headLen < (N + 2 ^ 64 - c.headLen) % 2 ^ 64 := by
              rw [hwrap]; split <;> omega
            simp only [NonCopy.parse, if_true, ne_eq, not_true, if_false, hN, hx]
          obtain ⟨k', hk', hlog, hrel⟩ := nonCopy_start0 c junk head' (by omega) (log ++ [.unpackError])
          refine ⟨k', ?_, ?_⟩
          · simp only [recvHandler, nonCopyOps, hparse, Option.bind_eq_bind, Option.bind_some, Bool.false_eq_true, if_false, NonCopy.reset,
              List.map_nil, List.append_nil]
            exact hk'
          · simp only [frameDec, hfr, visible]
            exact ⟨by simp [hlog, msgs], hrel⟩
        · by_cases hhb : N = c.headLen
          · -- heartbeat
            have hfr : frames c.headLen c.bufSize (p ++ d) = ([p ++ d], .incomplete []) := by
              rw [frames_one hl0 (by omega) (by rw [ht, hNp]; exact hbad) (by rw [ht, hNp]; omega), ht, hNp, hhb, ← hpl]
              rw [List.take_length, List.drop_length, frames_short (s := []) (by simp only [List.length_nil]; omega)]
            have hparse : NonCopy.parse c junk { head := head', raw := [], step := 0 } c.headLen =
                some ({ head := head', raw := [], step := 0 }, [], true) := by
              have h0 : (N + 2 ^ 64 - c.headLen) % 2 ^ 64 = 0 := by rw [hwrap, if_pos (by omega)]; omega
              simp only [NonCopy.parse, if_true, ne_eq, not_true, if_false, hN, h0]
              simp
            obtain ⟨k', hk', hlog, hrel⟩ := nonCopy_start0 c junk head' (by omega) log
            refine ⟨k', ?_, ?_⟩
            · simp only [recvHandler, nonCopyOps, hparse, Option.bind_eq_bind, Option.bind_some, if_true, List.map_nil, List.append_nil]
              exact hk'
            · simp only [frameDec, hfr, visible]
              exact ⟨by simp [hlog, msgs]; omega, hrel⟩
          · -- a body will follow
            have hfr : frames c.headLen c.bufSize (p ++ d) = ([], .incomplete (p ++ d)) :=
              frames_wait hl0 (by omega) (by rw [ht, hNp]; exact hbad) (by rw [ht, hNp]; omega)
            have hsub : (N + 2 ^ 64 - c.headLen) % 2 ^ 64 = N - c.headLen := by rw [hwrap, if_pos (by omega)]
            have hparse : NonCopy.parse c junk { head := head', raw := [], step := 0 } c.headLen =
                some ({ head := head', raw := junk (N - c.headLen), step := 1 }, [], true) := by
              have h1 : ¬ (c.bufSize - c.headLen < N - c.headLen) := by omega
              have h2 : 0 < N - c.headLen := by omega
              simp only [NonCopy.parse, if_true, ne_eq, not_true, if_false, hN, hsub, h1, h2]
            obtain ⟨k', hk', hlog, hrel⟩ := nonCopy_start1 c junk head' (junk (N - c.headLen)) (p ++ d) (by omega) log hpl
              (by rw [ht, hNp]; omega) (by rw [ht, hNp]; omega) (by rw [ht, hNp, hj])
            refine ⟨k', ?_, ?_⟩
            · simp only [recvHandler, nonCopyOps, hparse, Option.bind_eq_bind, Option.bind_some, if_true, List.map_nil, List.append_nil]
              exact hk'
            · simp only [frameDec, hfr, visible]
              exact ⟨by simp [hlog, msgs], hrel⟩
      · have hh0 : ¬ (c.headLen = 0) := by omega
        refine ⟨{ u := { head := head', raw := [], step := 0 }, ph := .reading c.headLen (got' + d.length) c.headLen, log }, ?_, ?_⟩
        · simp only [readSome, hwr, Option.bind_eq_bind, Option.bind_some, hf, if_false, hcond, hh0, Option.pure_def]
        · simp only [frameDec, frames_short (maxLen := c.bufSize) (s := p ++ d) (hl := c.headLen) (by simp; omega), visible]
          refine ⟨by simp [msgs], by simp only; omega, got' + d.length, Or.inl ⟨rfl, rfl, rfl, hwt.2, by simp; omega, by omega⟩⟩
    · -- reading the body
      obtain ⟨h1, h2, h3, h4, h5, h6, h7, h8⟩ := hm
      simp only at h1 h5 h6 h7 hph hhl
      rw [h6] at hph
      simp only [RxPhase.reading.injEq] at hph
      obtain ⟨rfl, rfl, rfl⟩ := hph
      subst h1
      have hrn : raw ≠ [] := by intro h; rw [h] at h5; simp at h5; omega
      have hw : writeAt raw got' d = some (raw.take got' ++ d ++ raw.drop (got' + d.length)) := writeAt_some (by omega)
      generalize hhd : raw.take got' ++ d ++ raw.drop (got' + d.length) = raw' at hw
      have hwt := writeAt_take hw
      rw [h7] at hwt
      have hrn' : raw' ≠ [] := by
        intro h; have := hwt.1; rw [h] at this; simp at this; exact hrn (List.length_eq_zero_iff.mp this.symm)
      have hwr : (nonCopyOps c junk).write { head, raw, step := 1 } got' d = some { head, raw := raw', step := 1 } := by
        simp [nonCopyOps, NonCopy.write, hw, hrn]
      have hcond : ∀ n, (nonCopyOps c junk).cond { head, raw := raw', step := 1 } n = some ({ head, raw := raw', step := 1 }, raw.length) := by
        intro n; simp [nonCopyOps, NonCopy.cond, hrn', hwt.1]
      have ht : (p ++ d).take c.headLen = p.take c.headLen := List.take_append_of_le_length h2
      have hdrop : (p ++ d).drop c.headLen = p.drop c.headLen ++ d := List.drop_append_of_le_length h2
      by_cases hf : got' + d.length = raw.length
      · have hread : readSome (nonCopyOps c junk) cwf { u := { head, raw, step := 1 }, ph, log } raw.length got' d =
            recvHandler (nonCopyOps c junk) { u := { head, raw := raw', step := 1 }, ph, log } raw.length := by
          cases cwf <;> simp [readSome, hwr, hf, hcond]
        rw [hread]
        have hraw' : raw' = (p ++ d).drop c.headLen := by
          rw [hdrop, ← hwt.2, List.take_of_length_le (by rw [hwt.1]; omega)]
        have hpl : (p ++ d).length = beVal ((p ++ d).take c.headLen) := by rw [ht]; simp; omega
        have hfr : frames c.headLen c.bufSize (p ++ d) = ([p ++ d], .incomplete []) := by
          rw [frames_one hl0 (by simp; omega) (by rw [ht]; omega) (by omega), ← hpl]
          rw [List.take_length, List.drop_length, frames_short (s := []) (by simpa using hl0)]
        have hparse : NonCopy.parse c junk { head, raw := raw', step := 1 } raw.length =
            some ({ head, raw := [], step := 0 }, [raw'], true) := by
          simp [NonCopy.parse, hrn', hwt.1]
        obtain ⟨k', hk', hlog, hrel⟩ := nonCopy_start0 c junk head hhl (log ++ [.msg raw'])
        refine ⟨k', ?_, ?_⟩
        · simp only [recvHandler, nonCopyOps, hparse, Option.bind_eq_bind, Option.bind_some, if_true, List.map_cons, List.map_nil]
          exact hk'
        · have hvis : visible c.headLen true [p ++ d] = [raw'] := by
            have : c.headLen < (p ++ d).length := by rw [hpl, ht]; omega
            simp only [visible, List.filter_cons, this, decide_true, if_true, List.filter_nil, List.map_cons, List.map_nil, hraw']
          simp only [frameDec, hfr, hvis]
          exact ⟨by rw [hlog]; rfl, hrel⟩
      · have hr0 : ¬ (raw.length = 0) := by omega
        refine ⟨{ u := { head, raw := raw', step := 1 }, ph := .reading raw.length (got' + d.length) raw.length, log }, ?_, ?_⟩
        · simp only [readSome, hwr, Option.bind_eq_bind, Option.bind_some, hf, if_false, hcond, hr0, Option.pure_def]
        · have hfr : frames c.headLen c.bufSize (p ++ d) = ([], .incomplete (p ++ d)) :=
            frames_wait hl0 (by simp; omega) (by rw [ht]; omega) (by rw [ht]; simp; omega)
          simp only [frameDec, hfr, visible]
          refine ⟨by simp [msgs], hhl, got' + d.length, Or.inr ⟨rfl, by simp; omega, by rw [ht]; simp; omega, by rw [ht]; exact h4, ?_, ?_, ?_, ?_⟩⟩
          · rw [ht]; simp only; rw [hwt.1]; exact h5
          · simp only; rw [hwt.1]
          · simp only; rw [hwt.2, hdrop]
          · simp only [List.length_append]; omega

/-! ### fixed_length_unpacker -/

def fixedDec (len : Nat) : Decoder := fun s => ((pieces len s).1, some (pieces len s).2)

theorem pieces_short {len : Nat} {s : Bytes} (h : s.length < len) : pieces len s = ([], s) := by
  rw [pieces]; simp [h]

theorem pieces_one {len : Nat} {s : Bytes} (h0 : 0 < len) (h : len ≤ s.length) :
    pieces len s = (s.take len :: (pieces len (s.drop len)).1, (pieces len (s.drop len)).2) := by
  rw [pieces, if_neg (by omega)]

theorem pieces_append {len : Nat} (h0 : 0 < len) (s b : Bytes) :
    pieces len (s ++ b) = ((pieces len s).1 ++ (pieces len ((pieces len s).2 ++ b)).1, (pieces len ((pieces len s).2 ++ b)).2) := by
  fun_induction pieces len s with
  | case1 s h => simp
  | case2 s h r ih =>
    rw [pieces_one h0 (by simp; omega), List.take_append_of_le_length (by omega), List.drop_append_of_le_length (by omega), ih]
    rfl

theorem fixedDec_incremental (len : Nat) (h0 : 0 < len) : Incremental (fixedDec len) where
  nil := by simp [fixedDec, pieces_short (s := []) (len := len) (by simpa using h0)]
  more := by
    intro a b ms p h
    simp only [fixedDec, Prod.mk.injEq, Option.some.injEq] at h ⊢
    rw [pieces_append h0 a b, h.1, h.2]
    exact ⟨rfl, rfl⟩
  bad := by intro a b ms h; simp [fixedDec] at h

/-- A stream of messages of the right length is cut at the right places. -/
theorem pieces_messages {len : Nat} (h0 : 0 < len) : ∀ (ms : List Bytes), (∀ m ∈ ms, m.length = len) →
    ∀ (s later : Bytes), s ++ later = ms.flatten → (pieces len s).1 = ms.take (s.length / len) := by
  intro ms
  induction ms with
  | nil =>
    intro _ s later h
    simp at h
    obtain ⟨rfl, rfl⟩ := h
    rw [pieces_short (by simpa using h0)]; simp
  | cons m ms ih =>
    intro hm s later h
    have hml := hm m (by simp)
    simp only [List.flatten_cons] at h
    rcases Nat.lt_or_ge s.length len with h1 | h1
    · rw [pieces_short h1, Nat.div_eq_of_lt h1]; simp
    · have hs : s.take len = m := by
        have := congrArg (List.take len) h
        rw [List.take_append_of_le_length h1, List.take_append_of_le_length (by omega), List.take_of_length_le (by omega : m.length ≤ len)] at this
        exact this
      have hd : s.drop len ++ later = ms.flatten := by
        have := congrArg (List.drop len) h
        rw [List.drop_append_of_le_length h1, List.drop_append_of_le_length (by omega), List.drop_of_length_le (by omega : m.length ≤ len)] at this
        simpa using this
      rw [pieces_one h0 h1, hs]
      have := ih (fun x hx => hm x (by simp [hx])) _ _ hd
      rw [this, List.length_drop, Nat.div_eq_sub_div h0 h1]
      simp

structure FixedRel (len : Nat) (k : Conn Fixed) (p : Bytes) : Prop where
  size : k.u.length = len
  mode : ∃ got, k.ph = .reading len got len ∧ k.u.take got = p ∧ got = p.length ∧ got < len

theorem fixed_start {len : Nat} (h0 : 0 < len) (junk : Nat → Bytes) (hj : ∀ n, (junk n).length = n) (u : Fixed) (log : List RxEvent) :
    ∃ k, startRead (fixedOps junk len) u log = some k ∧ k.log = log ∧ FixedRel len k [] := by
  have h1 : ¬ (len = 0) := by omega
  refine ⟨{ u := junk len, ph := .reading len 0 len, log }, ?_, rfl, hj len, 0, rfl, by simp, rfl, h0⟩
  have h2 : ¬ (0 = len) := by omega
  simp [startRead, fixedOps, Fixed.prepare, Fixed.cond, hj, h1, h2]

theorem fixed_simulates {len : Nat} (h0 : 0 < len) (junk : Nat → Bytes) (hj : ∀ n, (junk n).length = n) (cwf : Bool) :
    Simulates (fixedOps junk len) cwf (fixedDec len) (FixedRel len) where
  reading := by
    intro k p h
    obtain ⟨got, h1, _, _, h2⟩ := h.mode
    exact ⟨_, _, _, h1, h0, h2⟩
  step := by
    intro k p cap got want d hR hph hne hdw hdc
    have hdl : 0 < d.length := List.length_pos_iff.mpr hne
    obtain ⟨u, ph, log⟩ := k
    have hsz := hR.size
    obtain ⟨got', h1, h2, h3, h4⟩ := hR.mode
    simp only at h1 h2 hph hsz
    rw [h1] at hph
    simp only [RxPhase.reading.injEq] at hph
    obtain ⟨rfl, rfl, rfl⟩ := hph
    have hw : writeAt u got' d = some (u.take got' ++ d ++ u.drop (got' + d.length)) := writeAt_some (by omega)
    generalize hhd : u.take got' ++ d ++ u.drop (got' + d.length) = u' at hw
    have hwt := writeAt_take hw
    rw [h2] at hwt
    have hwr : (fixedOps junk len).write u got' d = some u' := hw
    have hcond : ∀ n, (fixedOps junk len).cond u' n = some (u', if n = len then 0 else len) := by
      intro n; simp [fixedOps, Fixed.cond, hwt.1, hsz]
    by_cases hf : got' + d.length = len
    · have hread : readSome (fixedOps junk len) cwf { u, ph, log } len got' d = recvHandler (fixedOps junk len) { u := u', ph, log } len := by
        cases cwf <;> simp [readSome, hwr, hf, hcond]
      rw [hread]
      have hu' : u' = p ++ d := by rw [← hwt.2, List.take_of_length_le (by rw [hwt.1]; omega)]
      have hpl : (p ++ d).length = len := by simp; omega
      have hpc : pieces len (p ++ d) = ([p ++ d], []) := by
        rw [pieces_one h0 (by omega), List.take_of_length_le (by omega), List.drop_of_length_le (by omega), pieces_short (by simpa using h0)]
      have hparse : Fixed.parse u' len = some ([], [u'], true) := by simp [Fixed.parse, hwt.1, hsz]
      obtain ⟨k', hk', hlog, hrel⟩ := fixed_start h0 junk hj ([] : Fixed) (log ++ [.msg u'])
      refine ⟨k', ?_, ?_⟩
      · simp only [recvHandler, fixedOps, hparse, Option.bind_eq_bind, Option.bind_some, if_true, List.map_cons, List.map_nil]
        exact hk'
      · simp only [fixedDec, hpc]
        exact ⟨by rw [hlog, hu']; rfl, hrel⟩
    · have hl0 : ¬ (len = 0) := by omega
      refine ⟨{ u := u', ph := .reading len (got' + d.length) len, log }, ?_, ?_⟩
      · simp only [readSome, hwr, Option.bind_eq_bind, Option.bind_some, hf, if_false, hcond, hl0, Option.pure_def]
      · simp only [fixedDec, pieces_short (len := len) (s := p ++ d) (by simp; omega)]
        exact ⟨by simp [msgs], by simp only; omega, got' + d.length, rfl, hwt.2, by simp; omega, by omega⟩

/-! ### stream_unpacker -/

structure StreamInv (c : Cfg) (k : Conn Strm) (s : Bytes) : Prop where
  size : k.u.length = c.bufSize
  ph : k.ph = .reading c.bufSize 0 c.bufSize
  log : ∃ ms : List Bytes, k.log = msgs ms ∧ ms.flatten = s ∧ ∀ m ∈ ms, m ≠ [] ∧ m.length ≤ c.bufSize

theorem stream_read (c : Cfg) (h0 : 0 < c.bufSize) (cwf : Bool) (k : Conn Strm) (s d : Bytes) (h : StreamInv c k s) (hne : d ≠ [])
    (hd : d.length ≤ c.bufSize) : ∃ k', readSome (streamOps c) cwf k c.bufSize 0 d = some k' ∧ StreamInv c k' (s ++ d) := by
  have hdl : 0 < d.length := List.length_pos_iff.mpr hne
  obtain ⟨u, ph, log⟩ := k
  have hsz := h.size
  simp only at hsz
  have hw : writeAt u 0 d = some (u.take 0 ++ d ++ u.drop (0 + d.length)) := writeAt_some (by omega)
  generalize hhd : u.take 0 ++ d ++ u.drop (0 + d.length) = u' at hw
  have hwt := writeAt_take hw
  simp only [List.take_zero, List.nil_append, Nat.zero_add] at hwt
  have hwr : (streamOps c).write u 0 d = some u' := hw
  have hcond : ∀ n, (streamOps c).cond u' n = some (u', if 0 < n then 0 else c.bufSize) := by
    intro n; simp [streamOps, Strm.cond]
  have hread : readSome (streamOps c) cwf { u, ph, log } c.bufSize 0 d = recvHandler (streamOps c) { u := u', ph, log } d.length := by
    by_cases hf : d.length = c.bufSize
    · cases cwf <;> simp [readSome, hwr, hf, hcond]
    · simp [readSome, hwr, hf, hcond, hdl]
  have hparse : Strm.parse c u' d.length = some (u', [d], true) := by
    have h1 : ¬ (d.length = 0) := by omega
    have h2 : ¬ (c.bufSize < d.length) := by omega
    rw [Strm.parse, if_neg h1, if_neg h2, readAt_some (by rw [hwt.1]; omega)]
    simp [hwt.2]
  have hb : ¬ (c.bufSize = 0) := by omega
  refine ⟨{ u := u', ph := .reading c.bufSize 0 c.bufSize, log := log ++ [.msg d] }, ?_, ?_⟩
  · rw [hread]
    have h1 : ¬ (u'.length = 0) := by rw [hwt.1]; omega
    simp only [recvHandler, streamOps, hparse, Option.bind_eq_bind, Option.bind_some, if_true, List.map_cons, List.map_nil, startRead, h1, if_false]
    simp [Strm.cond, hwt.1, hsz, hb]
  · obtain ⟨ms, h1, h2, h3⟩ := h.log
    simp only at h1
    refine ⟨by rw [← hsz, ← hwt.1], rfl, ms ++ [d], ?_, ?_, ?_⟩
    · simp [h1, msgs]
    · simp [h2]
    · intro m hm
      rcases List.mem_append.mp hm with hm | hm
      · exact h3 m hm
      · simp at hm; subst hm; exact ⟨hne, hd⟩

theorem stream_feedN (c : Cfg) (h0 : 0 < c.bufSize) (cwf : Bool) : ∀ (fuel : Nat) (k : Conn Strm) (s d : Bytes), d.length ≤ fuel → StreamInv c k s →
    ∃ k', feedN (streamOps c) cwf fuel k d = some k' ∧ StreamInv c k' (s ++ d) := by
  intro fuel
  induction fuel with
  | zero =>
    intro k s d hd h
    have : d = [] := List.length_eq_zero_iff.mp (by omega)
    subst this
    exact ⟨k, rfl, by simpa using h⟩
  | succ fuel ih =>
    intro k s d hd h
    match d, hd with
    | [], _ => exact ⟨k, by simp [feedN], by simpa using h⟩
    | x :: xs, hd =>
      let n := min (min c.bufSize (c.bufSize - 0)) (x :: xs).length
      have hn1 : 1 ≤ n := by simp only [n, List.length_cons]; omega
      have hnl : ((x :: xs).take n).length = n := by simp only [List.length_take]; omega
      have hne : (x :: xs).take n ≠ [] := by
        intro h0; rw [h0] at hnl; simp at hnl; omega
      obtain ⟨k1, hk1, hi1⟩ := stream_read c h0 cwf k s ((x :: xs).take n) h hne (by omega)
      obtain ⟨k2, hk2, hi2⟩ := ih k1 _ ((x :: xs).drop n) (by simp only [List.length_drop]; omega) hi1
      refine ⟨k2, ?_, ?_⟩
      · have hfe : feedN (streamOps c) cwf (fuel + 1) k (x :: xs) =
            (readSome (streamOps c) cwf k c.bufSize 0 ((x :: xs).take n)).bind (fun k => feedN (streamOps c) cwf fuel k ((x :: xs).drop n)) := by
          simp [feedN, h.ph, n, bind]
        rw [hfe, hk1]; exact hk2
      · rw [List.append_assoc, List.take_append_drop] at hi2; exact hi2

theorem stream_feedAll (c : Cfg) (h0 : 0 < c.bufSize) (cwf : Bool) : ∀ (ds : List Bytes) (k : Conn Strm) (s : Bytes), StreamInv c k s →
    ∃ k', feedAll (streamOps c) cwf k ds = some k' ∧ StreamInv c k' (s ++ ds.flatten) := by
  intro ds
  induction ds with
  | nil => intro k s h; exact ⟨k, rfl, by simpa using h⟩
  | cons d ds ih =>
    intro k s h
    obtain ⟨k1, h1, hi1⟩ := stream_feedN c h0 cwf d.length k s d (Nat.le_refl _) h
    obtain ⟨k2, h2, hi2⟩ := ih k1 _ hi1
    refine ⟨k2, ?_, by simpa [List.append_assoc] using hi2⟩
    simp [feedAll, feed, h1, h2]

theorem stream_start (c : Cfg) (h0 : 0 < c.bufSize) (raw : Bytes) (hraw : raw.length = c.bufSize) :
    ∃ k, startRead (streamOps c) raw [] = some k ∧ StreamInv c k [] := by
  have hb : ¬ (c.bufSize = 0) := by omega
  refine ⟨{ u := raw, ph := .reading c.bufSize 0 c.bufSize, log := [] }, ?_, hraw, rfl, [], rfl, rfl, by simp⟩
  simp [startRead, streamOps, Strm.cond, hraw, hb]

/-! ### udp_unpacker -/

theorem udp_datagrams (c : Cfg) : ∀ (ds : List Bytes) (raw : Bytes), raw.length = c.bufSize →
    Udp.datagrams c raw ds = some ((ds.map (List.take c.bufSize)).filter (fun d => decide (d ≠ []))) := by
  intro ds
  induction ds with
  | nil => intro raw _; rfl
  | cons d ds ih =>
    intro raw hraw
    have hle : (d.take raw.length).length ≤ raw.length := by simp only [List.length_take]; omega
    have hw : writeAt raw 0 (d.take raw.length) = some (raw.take 0 ++ d.take raw.length ++ raw.drop (0 + (d.take raw.length).length)) :=
      writeAt_some (by omega)
    generalize raw.take 0 ++ d.take raw.length ++ raw.drop (0 + (d.take raw.length).length) = raw' at hw
    have hwt := writeAt_take hw
    simp only [List.take_zero, List.nil_append, Nat.zero_add] at hwt
    have ih' := ih raw' (by rw [hwt.1, hraw])
    rw [hraw] at hw hwt hle
    generalize hD : d.take c.bufSize = D at *
    by_cases h0 : D.length = 0
    · have : D = [] := List.length_eq_zero_iff.mp h0
      subst this
      simp [Udp.datagrams, Udp.datagram, hraw, hD, hw, ih']
    · have hDn : D ≠ [] := by intro h; simp [h] at h0
      have hp : Udp.parse c raw' D.length = some [D] := by
        rw [Udp.parse, if_neg (by omega), readAt_some (by rw [hwt.1]; omega)]
        simp [hwt.2]
      simp [Udp.datagrams, Udp.datagram, hraw, hD, hw, hp, ih', hDn]

end StAsio
