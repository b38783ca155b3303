import Verif.Model.Unpacker
import Verif.Lemmas.Frames
/-! The default unpacker simulates the ideal frame decoder, one `async_read_some` at a time. -/
set_option autoImplicit false
namespace StAsio

theorem Cfg.headLen_pos (c : Cfg) : 0 < c.headLen := by unfold Cfg.headLen; split <;> omega

/-- Positions of consecutive frames starting at offset `p`. -/
def posFrom : Nat → List Bytes → List Pos
  | _, [] => []
  | p, f :: fs => (p, f.length) :: posFrom (p + f.length) fs

/-- `cur_msg_len` is either unknown or the length announced by the head of the pending bytes. -/
def CurOk (c : Cfg) (cur : Option Nat) (d : Bytes) : Prop :=
  cur = none ∨ (c.headLen ≤ d.length ∧ cur = some (beVal (d.take c.headLen)))

theorem take_drop_take {α} (l : List α) (p n k : Nat) (h : k ≤ n) : (l.drop p).take k = ((l.drop p).take n).take k := by
  rw [List.take_take]; congr 1; omega

theorem loop_spec (c : Cfg) (raw : Bytes) (p : Nat) (cur : Option Nat) (remain : Nat)
    (hb : p + remain ≤ raw.length) (hc : CurOk c cur ((raw.drop p).take remain)) :
    ∃ cur' ok, Unp.loop c raw p cur remain =
        some (posFrom p (frames c.headLen c.bufSize ((raw.drop p).take remain)).1,
          p + (frames c.headLen c.bufSize ((raw.drop p).take remain)).1.flatten.length, cur',
          (frames c.headLen c.bufSize ((raw.drop p).take remain)).2.rest.length, ok) ∧
      match (frames c.headLen c.bufSize ((raw.drop p).take remain)).2 with
      | .incomplete r => ok = true ∧ CurOk c cur' r ∧ (c.headLen ≤ r.length → cur' ≠ none)
      | .bad r => ok = false ∧ cur' = some (beVal (r.take c.headLen)) := by
  have hl0 := c.headLen_pos
  fun_induction Unp.loop c raw p cur remain with
  | case1 p remain n hbad =>
    have hlen : ((raw.drop p).take remain).length = remain := by simp only [List.length_take, List.length_drop]; omega
    rcases hc with hc | ⟨h1, h2⟩
    · simp at hc
    · simp only [Option.some.injEq] at h2
      rw [frames_badHead hl0 h1 (by rw [← h2]; omega)]
      exact ⟨some n, false, by simp [posFrom, Tail.rest, hlen], rfl, by rw [h2]⟩
  | case2 p remain n hbad hle ih =>
    have hlen : ((raw.drop p).take remain).length = remain := by simp only [List.length_take, List.length_drop]; omega
    rcases hc with hc | ⟨h1, h2⟩
    · simp at hc
    · simp only [Option.some.injEq] at h2
      have hdrop : ((raw.drop p).take remain).drop n = (raw.drop (p + n)).take (remain - n) := by
        rw [List.drop_take, List.drop_drop]
      have ih := ih (by omega) (Or.inl rfl)
      obtain ⟨cur', ok, heq, hm⟩ := ih
      rw [frames_one hl0 h1 (by rw [← h2]; omega) (by rw [← h2]; omega)]
      simp only [← h2, hdrop]
      refine ⟨cur', ok, ?_, hm⟩
      rw [heq]
      have : (((raw.drop p).take remain).take n).length = n := by rw [List.length_take, hlen]; omega
      simp only [posFrom, Option.pure_def, Option.bind_eq_bind, Option.bind_some, this, List.flatten_cons, List.length_append,
        Nat.add_assoc]
  | case3 p remain n hbad hle =>
    have hlen : ((raw.drop p).take remain).length = remain := by simp only [List.length_take, List.length_drop]; omega
    rcases hc with hc | ⟨h1, h2⟩
    · simp at hc
    · have h2' := h2
      simp only [Option.some.injEq] at h2
      rw [frames_wait hl0 h1 (by rw [← h2]; omega) (by rw [← h2]; omega)]
      refine ⟨_, _, by simp [posFrom, Tail.rest, hlen], rfl, Or.inr ⟨h1, h2'⟩, by simp⟩
  | case4 p remain hle hnone =>
    rw [readAt_some (by omega)] at hnone; simp at hnone
  | case5 p remain hle head hread ih =>
    have hlen : ((raw.drop p).take remain).length = remain := by simp only [List.length_take, List.length_drop]; omega
    rw [readAt_some (by omega), Option.some.injEq, take_drop_take raw p remain _ hle] at hread
    exact ih hb (Or.inr ⟨by omega, by rw [← hread]⟩)
  | case6 p remain hlt =>
    have hlen : ((raw.drop p).take remain).length = remain := by simp only [List.length_take, List.length_drop]; omega
    rw [frames_short (by omega)]
    exact ⟨_, _, by simp [posFrom, Tail.rest, hlen], rfl, hc, by omega⟩

theorem collect_spec (c : Cfg) (st : Bool) (fs : List Bytes) : ∀ (raw : Bytes) (p : Nat) (rest : Bytes),
    raw.drop p = fs.flatten ++ rest → p ≤ raw.length →
    Unp.collect c raw st (posFrom p fs) = some (visible c.headLen st fs) := by
  induction fs with
  | nil => intro raw p rest h hp; simp [posFrom, Unp.collect, visible]
  | cons f fs ih =>
    intro raw p rest h hp
    have hlen : raw.length = p + f.length + (fs.flatten ++ rest).length := by
      have := congrArg List.length h
      simp only [List.length_drop, List.flatten_cons, List.length_append] at this ⊢; omega
    have hd : raw.drop (p + f.length) = fs.flatten ++ rest := by
      rw [← List.drop_drop, h]; simp
    have ih := ih raw (p + f.length) rest hd (by omega)
    have e1 : (raw.drop p).take f.length = f := by rw [h]; simp
    simp only [posFrom, Unp.collect, ih, Option.bind_eq_bind, Option.bind_some, Option.pure_def]
    by_cases hf : c.headLen < f.length
    · have e2 : (raw.drop (p + c.headLen)).take (f.length - c.headLen) = f.drop c.headLen := by
        rw [← List.drop_drop, ← List.drop_take, e1]
      rw [if_pos hf]
      cases st with
      | true =>
        simp only [if_true]
        rw [readAt_some (by omega), e2]
        simp [visible, hf]
      | false =>
        simp only [Bool.false_eq_true, if_false]
        rw [readAt_some (by omega), e1]
        simp [visible, hf]
    · rw [if_neg hf]
      simp [visible, hf]

theorem posFrom_getLast (p : Nat) (fs : List Bytes) (h : fs ≠ []) :
    ∃ off len, (posFrom p fs).getLast? = some (off, len) ∧ off + len = p + fs.flatten.length := by
  induction fs generalizing p with
  | nil => exact absurd rfl h
  | cons f fs ih =>
    by_cases hfs : fs = []
    · subst hfs; exact ⟨p, f.length, by simp [posFrom], by simp⟩
    · obtain ⟨off, len, h1, h2⟩ := ih (p + f.length) hfs
      refine ⟨off, len, ?_, by simp only [List.flatten_cons, List.length_append]; omega⟩
      simp only [posFrom]
      rw [List.getLast?_cons, h1]; rfl

/-- Effect of `parse_msg`. -/
theorem parseBody_spec (c : Cfg) (u : Unp) (d : Bytes)
    (hd : u.raw.take u.remain = d) (hlen : u.remain ≤ u.raw.length) (hc : CurOk c u.cur d) :
    ∃ u' ok, Unp.parseBody c u = some (u', visible c.headLen u.stripped (frames c.headLen c.bufSize d).1, ok) ∧
      u'.raw.length = u.raw.length ∧ u'.stripped = u.stripped ∧
      match (frames c.headLen c.bufSize d).2 with
      | .incomplete r => u'.raw.take u'.remain = r ∧ CurOk c u'.cur r ∧
          (ok = true ↔ (frames c.headLen c.bufSize d).1 ≠ []) ∧ u'.remain = r.length ∧ (c.headLen ≤ r.length → u'.cur ≠ none)
      | .bad r => ok = false ∧ u'.cur = some (beVal (r.take c.headLen)) ∧ u'.raw.take u'.remain = r ∧ u'.remain = r.length := by
  have hdl : d.length = u.remain := by rw [← hd, List.length_take]; omega
  have hd0 : (u.raw.drop 0).take u.remain = d := by simpa using hd
  have hspec := loop_spec c u.raw 0 u.cur u.remain (by omega) (by rw [hd0]; exact hc)
  rw [hd0] at hspec
  obtain ⟨cur', ok, heq, hm⟩ := hspec
  have hflat := frames_flatten c.headLen c.bufSize d
  have hll := frames_lengths c.headLen c.bufSize d
  generalize hF : frames c.headLen c.bufSize d = F at *
  obtain ⟨fs, tl⟩ := F
  simp only at *
  have hrawd : u.raw.drop 0 = fs.flatten ++ (tl.rest ++ u.raw.drop u.remain) := by
    rw [← List.append_assoc, hflat, ← hd]; simp
  have hcol := collect_spec c u.stripped fs u.raw 0 _ hrawd (by omega)
  have hl0 := c.headLen_pos
  have hz : (0 + fs.flatten.length = 0) ↔ fs = [] := by
    constructor
    · intro h
      match fs, hll with
      | [], _ => rfl
      | f :: fs, hll =>
        have := (hll f (by simp)).1
        simp only [List.flatten_cons, List.length_append] at h; omega
    · intro h; simp [h]
  -- unfold parse
  have hparse : Unp.parseBody c u =
      (do
        match (posFrom 0 fs).getLast? with
        | some (off, len) =>
          if 0 < tl.rest.length then
            let left ← readAt u.raw (off + len) tl.rest.length
            let raw ← writeAt u.raw 0 left
            return ({ raw, cur := cur', remain := tl.rest.length, stripped := u.stripped }, visible c.headLen u.stripped fs,
              if fs = [] then false else ok)
          else return ({ u with cur := cur', remain := tl.rest.length }, visible c.headLen u.stripped fs,
              if fs = [] then false else ok)
        | none => return ({ u with cur := cur', remain := tl.rest.length }, visible c.headLen u.stripped fs,
              if fs = [] then false else ok)) := by
    simp only [Unp.parseBody, Unp.parsePos, heq, Option.bind_eq_bind, Option.bind_some, Option.pure_def, hcol, hz]
    cases (posFrom 0 fs).getLast? <;> rfl
  rw [hparse]
  by_cases hfs : fs = []
  · subst hfs
    simp only [posFrom, List.getLast?_nil, if_true]
    refine ⟨_, _, rfl, rfl, rfl, ?_⟩
    split at hm
    · next r =>
      have hr : r = d := by simpa [Tail.rest] using hflat
      subst hr
      refine ⟨?_, hm.2.1, by simp, rfl, hm.2.2⟩
      simp only [Tail.rest]; rw [hdl, hd]
    · next r =>
      have hr : r = d := by simpa [Tail.rest] using hflat
      subst hr
      refine ⟨rfl, hm.2, ?_, rfl⟩
      simp only [Tail.rest]; rw [hdl, hd]
  · obtain ⟨off, len, hlast, hoff⟩ := posFrom_getLast 0 fs hfs
    rw [hlast]
    simp only [hfs, if_false]
    have hfl : fs.flatten.length + tl.rest.length = d.length := by
      rw [← List.length_append, hflat]
    by_cases hr0 : 0 < tl.rest.length
    · rw [if_pos hr0, readAt_some (by omega)]
      have hleft : (u.raw.drop (off + len)).take tl.rest.length = tl.rest := by
        rw [hoff, ← List.drop_drop, hrawd]; simp
      rw [hleft]
      simp only [Option.bind_eq_bind, Option.bind_some, Option.pure_def]
      rw [writeAt_some (by omega)]
      simp only [Option.bind_some]
      refine ⟨_, _, rfl, ?_, rfl, ?_⟩
      · simp; omega
      · split at hm
        · next r =>
          refine ⟨?_, hm.2.1, ?_, rfl, hm.2.2⟩
          · simp [Tail.rest]
          · simp [hm.1, hfs]
        · refine ⟨hm.1, hm.2, ?_, rfl⟩
          simp [Tail.rest]
    · rw [if_neg hr0]
      refine ⟨_, _, rfl, rfl, rfl, ?_⟩
      have hr0' : tl.rest = [] := List.length_eq_zero_iff.mp (by omega)
      split at hm
      · next r =>
        simp only [Tail.rest] at hr0'
        subst hr0'
        refine ⟨by simp [Tail.rest], hm.2.1, ?_, rfl, hm.2.2⟩
        simp [hm.1, hfs]
      · next r =>
        simp only [Tail.rest] at hr0'
        subst hr0'
        exact ⟨hm.1, hm.2, by simp [Tail.rest], rfl⟩

theorem parse_spec (c : Cfg) (u : Unp) (got : Nat) (d : Bytes) (hraw : u.raw.length = c.bufSize)
    (hd : u.raw.take (u.remain + got) = d) (hlen : u.remain + got ≤ c.bufSize) (hc : CurOk c u.cur d) :
    ∃ u' ok, Unp.parse c u got = some (u', visible c.headLen u.stripped (frames c.headLen c.bufSize d).1, ok) ∧
      u'.raw.length = c.bufSize ∧ u'.stripped = u.stripped ∧
      match (frames c.headLen c.bufSize d).2 with
      | .incomplete r => u'.raw.take u'.remain = r ∧ CurOk c u'.cur r ∧
          (ok = true ↔ (frames c.headLen c.bufSize d).1 ≠ []) ∧ u'.remain = r.length
      | .bad r => ok = false ∧ u'.cur = some (beVal (r.take c.headLen)) ∧ u'.raw.take u'.remain = r ∧ u'.remain = r.length := by
  have hn : ¬ c.bufSize < u.remain + got := by omega
  obtain ⟨u', ok, h1, h2, h3, h4⟩ := parseBody_spec c { u with remain := u.remain + got } d hd (by simp only; omega) hc
  refine ⟨u', ok, ?_, by rw [h2]; exact hraw, h3, ?_⟩
  · simp only [Unp.parse, hn, if_false, h1]
  · split at h4
    · exact ⟨h4.1, h4.2.1, h4.2.2.1, h4.2.2.2.1⟩
    · exact h4

/-- What the completion condition tells about the pending bytes `d`. -/
theorem cond_spec (c : Cfg) (u : Unp) (got : Nat) (d : Bytes) (hraw : u.raw.length = c.bufSize)
    (hd : u.raw.take (u.remain + got) = d) (hlen : u.remain + got ≤ c.bufSize) (hc : CurOk c u.cur d)
    (hv : ∀ n, u.cur = some n → ¬ (n < c.headLen ∨ c.bufSize < n)) :
    ∃ cur' want, Unp.cond c u got = some ({ u with cur := cur' }, want) ∧ CurOk c cur' d ∧
      (want = 0 ∧ frames c.headLen c.bufSize d ≠ ([], .incomplete d) ∨
        want = c.bufSize ∧ frames c.headLen c.bufSize d = ([], .incomplete d)) := by
  have hdl : d.length = u.remain + got := by rw [← hd, List.length_take]; omega
  have hl0 := c.headLen_pos
  have hn : ¬ c.bufSize < u.remain + got := by omega
  -- the outcome once the announced length is known
  have known : ∀ n, c.headLen ≤ d.length → n = beVal (d.take c.headLen) →
      (¬ (n < c.headLen ∨ c.bufSize < n) →
        ((if n ≤ u.remain + got then 0 else c.bufSize) = 0 ∧ frames c.headLen c.bufSize d ≠ ([], .incomplete d) ∨
         (if n ≤ u.remain + got then 0 else c.bufSize) = c.bufSize ∧ frames c.headLen c.bufSize d = ([], .incomplete d))) := by
    intro n h1 h2 hv
    by_cases hle : n ≤ u.remain + got
    · left
      refine ⟨by simp [hle], ?_⟩
      rw [frames_one hl0 h1 (by rw [← h2]; exact hv) (by omega)]
      simp
    · right
      refine ⟨by simp [hle], ?_⟩
      exact frames_wait hl0 h1 (by rw [← h2]; exact hv) (by omega)
  simp only [Unp.cond, hn, if_false]
  rcases hc with hc | ⟨h1, h2⟩
  · rw [hc]
    simp only
    by_cases hh : c.headLen ≤ u.remain + got
    · rw [if_pos hh, readAt_some (by omega)]
      have hhead : (u.raw.drop 0).take c.headLen = d.take c.headLen := by
        rw [← hd, List.take_take, List.drop_zero]; congr 1; omega
      rw [hhead]
      simp only [Option.bind_eq_bind, Option.bind_some, Option.pure_def]
      by_cases hbad : c.bufSize < beVal (d.take c.headLen) ∨ beVal (d.take c.headLen) < c.headLen
      · rw [if_pos hbad]
        refine ⟨_, _, rfl, Or.inr ⟨by omega, rfl⟩, Or.inl ⟨rfl, ?_⟩⟩
        rw [frames_badHead hl0 (by omega) (by omega)]; simp
      · rw [if_neg hbad]
        refine ⟨_, _, rfl, Or.inr ⟨by omega, rfl⟩, known _ (by omega) rfl (by omega)⟩
    · rw [if_neg hh]
      refine ⟨none, _, ?_, Or.inl rfl, Or.inr ⟨rfl, frames_short (by omega)⟩⟩
      rw [← hc]; rfl
  · rw [h2]
    simp only [Option.pure_def]
    refine ⟨some (beVal (d.take c.headLen)), _, by rw [← h2], Or.inr ⟨h1, rfl⟩, ?_⟩
    exact known _ h1 rfl (hv _ h2)

/-- Pending bytes never fill the buffer. -/
theorem incomplete_lt (hl maxLen : Nat) (d : Bytes) (h0 : 0 < hl) (hv : hl ≤ maxLen)
    (h : frames hl maxLen d = ([], .incomplete d)) (hle : d.length ≤ maxLen) : d.length < maxLen := by
  rcases Nat.lt_or_ge d.length hl with h1 | h1
  · omega
  · by_cases hb : beVal (d.take hl) < hl ∨ maxLen < beVal (d.take hl)
    · rw [frames_badHead h0 h1 hb] at h; simp at h
    · rcases Nat.lt_or_ge d.length (beVal (d.take hl)) with h2 | h2
      · omega
      · rw [frames_one h0 h1 hb h2] at h; simp at h

theorem incomplete_valid {hl maxLen : Nat} {d : Bytes} (h0 : 0 < hl) (h1 : hl ≤ d.length)
    (h : frames hl maxLen d = ([], .incomplete d)) : ¬ (beVal (d.take hl) < hl ∨ maxLen < beVal (d.take hl)) := by
  intro hb; rw [frames_badHead h0 h1 hb] at h; simp at h

/-- Simulation relation between the default unpacker's connection and the pending bytes of the ideal decoder. -/
structure UnpRel (c : Cfg) (st : Bool) (k : Conn Unp) (p : Bytes) : Prop where
  raw : k.u.raw.length = c.bufSize
  str : k.u.stripped = st
  pend : frames c.headLen c.bufSize p = ([], .incomplete p)
  cur : CurOk c k.u.cur p
  ph : ∃ got, k.ph = .reading (c.bufSize - k.u.remain) got c.bufSize ∧ k.u.raw.take (k.u.remain + got) = p ∧
    k.u.remain + got < c.bufSize

theorem startRead_rel (c : Cfg) (hv : c.Valid) (u : Unp) (log : List RxEvent) (p : Bytes) (hraw : u.raw.length = c.bufSize)
    (hp : u.raw.take u.remain = p) (hpl : p.length = u.remain) (hf : frames c.headLen c.bufSize p = ([], .incomplete p))
    (hc : CurOk c u.cur p) :
    ∃ k, startRead (unpackerOps c) u log = some k ∧ k.log = log ∧ UnpRel c u.stripped k p := by
  have hl0 := c.headLen_pos
  have hlen : p.length ≤ c.bufSize := by rw [← hp, List.length_take]; omega
  have hlt := incomplete_lt _ _ _ hl0 hv.1 hf hlen
  have hcv : ∀ n, u.cur = some n → ¬ (n < c.headLen ∨ c.bufSize < n) := by
    intro n hn
    rcases hc with hc | ⟨h1, h2⟩
    · rw [hc] at hn; simp at hn
    · rw [h2] at hn; simp at hn; subst hn; exact incomplete_valid hl0 h1 hf
  obtain ⟨cur', want, heq, hc', hw⟩ := cond_spec c u 0 p hraw (by simpa using hp) (by omega) hc hcv
  have hw' : want = c.bufSize := by
    rcases hw with ⟨_, h⟩ | ⟨h, _⟩
    · exact absurd hf h
    · exact h
  subst hw'
  refine ⟨{ u := { u with cur := cur' }, ph := .reading (c.bufSize - u.remain) 0 c.bufSize, log }, ?_, rfl, ?_⟩
  · have h1 : u.remain < c.bufSize := by omega
    have h2 : ¬ (c.bufSize - u.remain = 0) := by omega
    have h3 : ¬ (c.bufSize = 0) := by omega
    simp [startRead, unpackerOps, Unp.prepare, h1, hraw, h2, heq, h3]
  · exact ⟨hraw, rfl, hf, hc', 0, rfl, by simpa using hp, by simp; omega⟩

theorem recvHandler_rel (c : Cfg) (hv : c.Valid) (k : Conn Unp) (got : Nat) (d : Bytes) (hraw : k.u.raw.length = c.bufSize)
    (hd : k.u.raw.take (k.u.remain + got) = d) (hlen : k.u.remain + got ≤ c.bufSize) (hc : CurOk c k.u.cur d)
    (hne : frames c.headLen c.bufSize d ≠ ([], .incomplete d)) :
    ∃ k', recvHandler (unpackerOps c) k got = some k' ∧
      match frameDec c.headLen c.bufSize k.u.stripped d with
      | (ms, some p') => k'.log = k.log ++ msgs ms ∧ UnpRel c k.u.stripped k' p'
      | (ms, none) => k'.log = k.log ++ msgs ms ++ [.unpackError] ∧ UnpRel c k.u.stripped k' [] := by
  have hl0 := c.headLen_pos
  obtain ⟨u', ok, heq, hraw', hst', hm⟩ := parse_spec c k.u got d hraw hd hlen hc
  have hrest := frames_rest c.headLen c.bufSize d
  have hflat := frames_flatten c.headLen c.bufSize d
  unfold frameDec
  generalize hF : frames c.headLen c.bufSize d = F at *
  obtain ⟨fs, tl⟩ := F
  simp only at hm heq hrest hflat ⊢
  cases tl with
  | incomplete r =>
    simp only at hm
    obtain ⟨h1, h2, h3, h4⟩ := hm
    have hok : ok = true := by
      rw [h3]; intro h0; subst h0
      apply hne
      have : r = d := by simpa [Tail.rest] using hflat
      rw [this]
    subst hok
    obtain ⟨k', hk', hlog, hrel⟩ := startRead_rel c hv u' (k.log ++ msgs (visible c.headLen k.u.stripped fs)) r hraw' h1 h4.symm
      (hrest r rfl) h2
    refine ⟨k', ?_, hlog, by rw [← hst']; exact hrel⟩
    simp only [recvHandler, unpackerOps, heq, Option.bind_eq_bind, Option.bind_some, if_true]
    exact hk'
  | bad r =>
    simp only at hm
    obtain ⟨rfl, _⟩ := hm
    obtain ⟨k', hk', hlog, hrel⟩ := startRead_rel c hv u'.reset (k.log ++ msgs (visible c.headLen k.u.stripped fs) ++ [.unpackError])
      [] hraw' (by simp [Unp.reset]) (by simp [Unp.reset]) (frames_short (by simpa using hl0)) (Or.inl rfl)
    refine ⟨k', ?_, hlog, by rw [← hst']; exact hrel⟩
    simp only [recvHandler, unpackerOps, heq, Option.bind_eq_bind, Option.bind_some]
    exact hk'

theorem writeAt_take {m : Bytes} {off : Nat} {d m' : Bytes} (h : writeAt m off d = some m') :
    m'.length = m.length ∧ m'.take (off + d.length) = m.take off ++ d := by
  unfold writeAt at h
  split at h
  · next hle =>
    simp only [Option.some.injEq] at h
    subst h
    refine ⟨by simp; omega, ?_⟩
    rw [List.take_append_of_le_length (by simp; omega), List.take_of_length_le (by simp; omega)]
  · simp at h

theorem unpacker_simulates (c : Cfg) (hv : c.Valid) (st cwf : Bool) :
    Simulates (unpackerOps c) cwf (frameDec c.headLen c.bufSize st) (UnpRel c st) where
  reading := by
    intro k p h
    obtain ⟨got, h1, _, h3⟩ := h.ph
    have := c.headLen_pos
    exact ⟨_, _, _, h1, by omega, by omega⟩
  step := by
    intro k p cap got want d hR hph hne hdw hdc
    have hl0 := c.headLen_pos
    obtain ⟨got', h1, h2, h3⟩ := hR.ph
    rw [hph] at h1
    simp only [RxPhase.reading.injEq] at h1
    obtain ⟨rfl, rfl, rfl⟩ := h1
    have hdl : 0 < d.length := List.length_pos_iff.mpr hne
    have hraw := hR.raw
    have hw : writeAt k.u.raw (k.u.remain + got) d =
        some (k.u.raw.take (k.u.remain + got) ++ d ++ k.u.raw.drop (k.u.remain + got + d.length)) := writeAt_some (by omega)
    generalize hraw' : k.u.raw.take (k.u.remain + got) ++ d ++ k.u.raw.drop (k.u.remain + got + d.length) = raw' at hw
    have hwt := writeAt_take hw
    rw [h2] at hwt
    have hrl : raw'.length = c.bufSize := by rw [hwt.1, hraw]
    have hpl : p.length = k.u.remain + got := by rw [← h2, List.length_take]; omega
    -- facts about the new pending bytes
    have hcur : CurOk c k.u.cur (p ++ d) := by
      rcases hR.cur with h | ⟨ha, hb⟩
      · exact Or.inl h
      · refine Or.inr ⟨by simp; omega, ?_⟩
        rw [List.take_append_of_le_length ha]; exact hb
    have hcv : ∀ n, k.u.cur = some n → ¬ (n < c.headLen ∨ c.bufSize < n) := by
      intro n hn
      rcases hR.cur with hc | ⟨h1, h2⟩
      · rw [hc] at hn; simp at hn
      · rw [h2] at hn; simp at hn; subst hn; exact incomplete_valid hl0 h1 hR.pend
    obtain ⟨cur', want', hcond, hcur', hwant⟩ := cond_spec c { k.u with raw := raw' } (got + d.length) (p ++ d) hrl
      (by rw [← Nat.add_assoc]; exact hwt.2) (by simp only; omega) hcur hcv
    have hstr := hR.str
    have hwr : (unpackerOps c).write k.u got d = some { k.u with raw := raw' } := by
      simp [unpackerOps, Unp.write, hw]
    -- the pending bytes of a full buffer are never just an incomplete frame
    have hfull : got + d.length = c.bufSize - k.u.remain → frames c.headLen c.bufSize (p ++ d) ≠ ([], .incomplete (p ++ d)) := by
      intro hfull hinc
      have := incomplete_lt _ _ _ hl0 hv.1 hinc (by simp; omega)
      simp at this; omega
    have hcond' : (unpackerOps c).cond { k.u with raw := raw' } (got + d.length) =
        some ({ k.u with raw := raw', cur := cur' }, want') := hcond
    by_cases hf : got + d.length = c.bufSize - k.u.remain
    · cases cwf with
      | false =>
        obtain ⟨k', hk', hm⟩ := recvHandler_rel c hv { k with u := { k.u with raw := raw' } } (got + d.length) (p ++ d) hrl
          (by simp only; rw [← Nat.add_assoc]; exact hwt.2) (by simp only; omega) hcur (hfull hf)
        refine ⟨k', ?_, by
          simp only [hstr] at hm
          generalize frameDec c.headLen c.bufSize st (p ++ d) = F at hm ⊢
          rcases F with ⟨ms, _ | p'⟩ <;> exact hm⟩
        simp only [readSome, hwr, Option.bind_eq_bind, Option.bind_some, hf, if_true, Bool.false_eq_true, if_false]
        rw [← hf]; exact hk'
      | true =>
        obtain ⟨k', hk', hm⟩ := recvHandler_rel c hv { k with u := { k.u with raw := raw', cur := cur' } } (got + d.length) (p ++ d) hrl
          (by simp only; rw [← Nat.add_assoc]; exact hwt.2) (by simp only; omega) hcur' (hfull hf)
        refine ⟨k', ?_, by
          simp only [hstr] at hm
          generalize frameDec c.headLen c.bufSize st (p ++ d) = F at hm ⊢
          rcases F with ⟨ms, _ | p'⟩ <;> exact hm⟩
        simp only [readSome, hwr, Option.bind_eq_bind, Option.bind_some, hf, if_true]
        rw [← hf, hcond']; exact hk'
    · rcases hwant with ⟨hw0, hnf⟩ | ⟨hwb, hinc⟩
      · obtain ⟨k', hk', hm⟩ := recvHandler_rel c hv { k with u := { k.u with raw := raw', cur := cur' } } (got + d.length) (p ++ d) hrl
          (by simp only; rw [← Nat.add_assoc]; exact hwt.2) (by simp only; omega) hcur' hnf
        refine ⟨k', ?_, by
          simp only [hstr] at hm
          generalize frameDec c.headLen c.bufSize st (p ++ d) = F at hm ⊢
          rcases F with ⟨ms, _ | p'⟩ <;> exact hm⟩
        simp only [readSome, hwr, Option.bind_eq_bind, Option.bind_some, hf, if_false, hcond', hw0, if_true]
        exact hk'
      · have hb0 : ¬ (c.bufSize = 0) := by omega
        refine ⟨{ k with u := { k.u with raw := raw', cur := cur' }, ph := .reading (c.bufSize - k.u.remain) (got + d.length) c.bufSize }, ?_, ?_⟩
        · simp only [readSome, hwr, Option.bind_eq_bind, Option.bind_some, hf, if_false, hcond', hwb, hb0, Option.pure_def]
        · simp only [frameDec, hinc]
          refine ⟨by simp [msgs, visible], hrl, hstr, hinc, hcur', got + d.length, rfl, ?_, ?_⟩
          · simp only; rw [← Nat.add_assoc]; exact hwt.2
          · simp only; omega

theorem unpacker_start (c : Cfg) (hv : c.Valid) (raw : Bytes) (hraw : raw.length = c.bufSize) (st : Bool) :
    ∃ c0, startRead (unpackerOps c) (Unp.init raw st) [] = some c0 ∧ c0.log = [] ∧ UnpRel c st c0 [] := by
  have := startRead_rel c hv (Unp.init raw st) [] [] hraw (by simp [Unp.init]) (by simp [Unp.init])
    (frames_short (by simpa using c.headLen_pos)) (Or.inl rfl)
  exact this

end StAsio
