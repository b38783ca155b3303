import Verif.Lemmas.Dump2
import Verif.Props.C82_Log
/-!
# C101: what is logged about bytes that cannot be unpacked
-/
set_option autoImplicit false
namespace StAsio

theorem dumpLog_read {hl mx : Nat} {ann : Bytes → Nat} {s : Bytes} {l : List (List Char)} (h : DumpLog hl mx ann s l) :
    match (frames hl mx s).2 with
    | .incomplete _ => l = []
    | .bad r => ∃ r' dump t, l = dumpMessage (ann r') dump :: t ∧ readHex dump = some r' ∧ r' <+: r ∧ hl ≤ r'.length := by
  unfold DumpLog at h
  split
  · next hF => rw [hF] at h; exact h
  · next hF =>
    rw [hF] at h
    obtain ⟨r', t, e, h1, h2⟩ := h
    exact ⟨r', dumpFrom 0 r', t, e, dumpFrom_read r', h1, h2⟩

theorem announced_prefix {hl : Nat} {r r' : Bytes} (h1 : r' <+: r) (h2 : hl ≤ r'.length) : r'.take hl = r.take hl := by
  obtain ⟨t, rfl⟩ := h1
  rw [List.take_append_of_le_length h2]

/-- **C101** for the default unpacker: whatever bytes arrive, in whatever pieces, there is no access outside of the buffer; nothing is logged as long as the bytes can be unpacked; and otherwise the
first message in the log tells the length announced by the malformed head and shows, readable without loss, the bytes that follow the last well-formed frame: the malformed head and what had
arrived behind it, nothing else. -/
theorem C101_default (c : Cfg) (hv : c.Valid) (raw : Bytes) (hraw : raw.length = c.bufSize) (st cwf : Bool) (chunks : List Bytes) :
    ∃ k, receive (dumpOps (unpackerOps c) (fun _ _ v => v.dump)) cwf (Unp.init raw st, []) chunks = some k ∧
      match (frames c.headLen c.bufSize chunks.flatten).2 with
      | .incomplete _ => k.u.2 = []
      | .bad r => ∃ r' dump t, k.u.2 = dumpMessage (beVal (r.take c.headLen)) dump :: t ∧ readHex dump = some r' ∧ r' <+: r ∧ c.headLen ≤ r'.length := by
  obtain ⟨k, l, h1, _, h2⟩ := receive_dump c.headLen_pos (frameDec_incremental c.headLen c.bufSize c.headLen_pos st) (unpacker_simulates c hv st cwf) (unpacker_dumps c st)
    (unpacker_start c hv raw hraw st) chunks
  refine ⟨_, h1, ?_⟩
  have h2 := dumpLog_read h2
  split
  · next hF => rw [hF] at h2; exact h2
  · next hF =>
    rw [hF] at h2
    obtain ⟨r', dump, t, e, h3, h4, h5⟩ := h2
    exact ⟨r', dump, t, by rw [← announced_prefix h4 h5]; exact e, h3, h4, h5⟩

/-- **C101** for the flexible unpacker. -/
theorem C101_flexible (c : Cfg) (hv : c.Valid) (junk : Nat → Bytes) (hj : ∀ n, (junk n).length = n) (raw : Bytes) (hraw : raw.length = flexSize) (st cwf : Bool) (chunks : List Bytes) :
    ∃ k, receive (dumpOps (flexOps c junk) (fun _ _ v => v.dump)) cwf (Flex.init raw st, []) chunks = some k ∧
      match (frames c.headLen c.bufSize chunks.flatten).2 with
      | .incomplete _ => k.u.2 = []
      | .bad r => ∃ r' dump t, k.u.2 = dumpMessage (beVal (r.take c.headLen)) dump :: t ∧ readHex dump = some r' ∧ r' <+: r ∧ c.headLen ≤ r'.length := by
  have hl0 := c.headLen_pos
  have hsm : FlexSmall c (Flex.init raw st) [] :=
    ⟨hraw, rfl, by simp [Flex.init], rfl, Or.inl rfl, frames_short (by simpa using hl0), by intro h; simp at h; omega⟩
  obtain ⟨k, l, h1, _, h2⟩ := receive_dump hl0 (frameDec_incremental c.headLen c.bufSize hl0 st) (flex_simulates c hv junk hj st cwf) (flex_dumps c junk st)
    (flex_start_small hv junk hsm []) chunks
  refine ⟨_, h1, ?_⟩
  have h2 := dumpLog_read h2
  split
  · next hF => rw [hF] at h2; exact h2
  · next hF =>
    rw [hF] at h2
    obtain ⟨r', dump, t, e, h3, h4, h5⟩ := h2
    exact ⟨r', dump, t, by rw [← announced_prefix h4 h5]; exact e, h3, h4, h5⟩

/-- **C101** for the non-copy unpacker. What it calls the message's length is the length of the body as the program computes it (modulo 2^64; it prints 0 for the largest number). -/
theorem C101_non_copy (c : Cfg) (hv : c.Valid) (junk : Nat → Bytes) (hj : ∀ n, (junk n).length = n) (head : Bytes) (hh : head.length = c.headLen) (cwf : Bool) (chunks : List Bytes) :
    ∃ k, receive (dumpOps (nonCopyOps c junk) (fun u n _ => NonCopy.dump c u n)) cwf (NonCopy.init head, []) chunks = some k ∧
      match (frames c.headLen c.bufSize chunks.flatten).2 with
      | .incomplete _ => k.u.2 = []
      | .bad r => ∃ r' dump t, k.u.2 = dumpMessage (if beVal (r.take c.headLen) + 1 = c.headLen then 0 else (beVal (r.take c.headLen) + 2 ^ 64 - c.headLen) % 2 ^ 64) dump :: t ∧
          readHex dump = some r' ∧ r' <+: r ∧ c.headLen ≤ r'.length := by
  have hl0 := c.headLen_pos
  obtain ⟨k, l, h1, _, h2⟩ := receive_dump hl0 (frameDec_incremental c.headLen c.bufSize hl0 true) (nonCopy_simulates c hv junk hj cwf) (nonCopy_dumps c junk)
    (nonCopy_start0 c junk head hh []) chunks
  refine ⟨_, h1, ?_⟩
  have h2 := dumpLog_read h2
  split
  · next hF => rw [hF] at h2; exact h2
  · next hF =>
    rw [hF] at h2
    obtain ⟨r', dump, t, e, h3, h4, h5⟩ := h2
    refine ⟨r', dump, t, ?_, h3, h4, h5⟩
    rw [← announced_prefix h4 h5]; exact e

theorem Ps.loop_pos {c : Cfg} {p : PsCfg} {raw : Bytes} {st : Bool} : ∀ (fuel pos : Nat) (cur : Option Nat) (remain : Nat) (ms : List Bytes) (pos' : Nat) (cur' : Option Nat) (remain' : Nat)
    (ms' : List Bytes), Ps.loop c p raw st fuel pos cur remain ms = some (pos', cur', remain', ms') → pos ≤ pos' ∧ (pos' = pos → remain' = remain ∧ ms' = ms) := by
  intro fuel
  induction fuel with
  | zero => intro pos cur remain ms pos' cur' remain' ms' h; cases h
  | succ fuel ih =>
    intro pos cur remain ms pos' cur' remain' ms' h
    simp only [Ps.loop, Option.bind_eq_bind, Option.bind_eq_some_iff] at h
    obtain ⟨⟨cur1, ret⟩, _, h⟩ := h
    simp only at h
    split at h
    · split at h
      · cases h
      · split at h
        · cases h
        · simp only [Option.bind_eq_some_iff] at h
          obtain ⟨m, _, h⟩ := h
          have := ih _ _ _ _ _ _ _ _ h
          exact ⟨by omega, fun e => by omega⟩
    · cases h
      exact ⟨Nat.le_refl _, fun _ => ⟨rfl, rfl⟩⟩

/-- **C101** for the prefix-suffix unpacker: a call of parse_msg that fails has handed over nothing, and what is logged then is all that is in the buffer: what was left over, and what was just read. -/
theorem C101_prefix_suffix (c : Cfg) (p : PsCfg) (u v : Ps) (n : Nat) (ms : List Bytes) (hraw : u.raw.length = c.bufSize)
    (h : Ps.parse c p u n = some (v, ms, false)) :
    ms = [] ∧ (u.remain + n = 0 ∧ v.dump = some [] ∨
      ∃ announced dump, v.dump = some [dumpMessage announced dump] ∧ readHex dump = some (u.raw.take (u.remain + n))) := by
  unfold Ps.parse at h
  simp only at h
  split at h
  · cases h
  · next hle =>
    simp only [Option.bind_eq_bind, Option.bind_eq_some_iff] at h
    obtain ⟨⟨pos, cur, remain, ms'⟩, hl, h⟩ := h
    simp only at h
    split at h
    · next hp =>
      cases h
      obtain ⟨_, hr⟩ := Ps.loop_pos _ _ _ _ _ _ _ _ _ hl
      obtain ⟨hr, hm⟩ := hr hp
      refine ⟨hm, ?_⟩
      simp only [Ps.dump, hr]
      rw [dumpLeft_eq (by omega)]
      by_cases h0 : 0 < u.remain + n
      · rw [if_pos h0]
        exact Or.inr ⟨_, _, rfl, dumpFrom_read _⟩
      · rw [if_neg h0]
        exact Or.inl ⟨by omega, rfl⟩
    · split at h
      · simp only [Option.bind_eq_some_iff] at h
        obtain ⟨_, _, _, _, h⟩ := h
        cases h
      · cases h

/-! ### In the log -/

theorem dumpFrom_append (a b : Bytes) : ∀ i, dumpFrom i (a ++ b) = dumpFrom i a ++ dumpFrom (i + a.length) b := by
  induction a with
  | nil => intro i; simp [dumpFrom]
  | cons x xs ih =>
    intro i
    have e : i + 1 + xs.length = i + (x :: xs).length := by simp only [List.length_cons]; omega
    simp only [List.cons_append, dumpFrom, ih (i + 1), List.append_assoc, e]

theorem dumpFrom_length (a : Bytes) : ∀ i, 0 < i → 3 * a.length ≤ (dumpFrom i a).length := by
  induction a with
  | nil => intro i _; simp [dumpFrom]
  | cons x xs ih =>
    intro i hi
    have h1 := ih (i + 1) (by omega)
    have h2 : 1 ≤ (dumpSep i).length := by
      unfold dumpSep
      rw [if_pos hi]
      split
      · simp
      · split <;> simp
    simp only [dumpFrom, List.length_append, List.length_cons, hexByte, List.length_nil]
    omega

theorem dumpFrom_length0 (a : Bytes) : 3 * a.length ≤ (dumpFrom 0 a).length + 1 := by
  cases a with
  | nil => simp
  | cons x xs =>
    have := dumpFrom_length xs (0 + 1) (by omega)
    simp only [dumpFrom, dumpSep, hexByte, List.length_append, List.length_cons, List.length_nil, Nat.lt_irrefl, if_false]
    omega

theorem no_nul_from (a : Bytes) : ∀ i, '\x00' ∉ dumpFrom i a := by
  induction a with
  | nil => intro i; simp [dumpFrom]
  | cons x xs ih =>
    intro i
    have h := byte_lt x
    have h1 := (hexDigit_ne h.1).2.2
    have h2 := (hexDigit_ne h.2).2.2
    have h3 : '\x00' ∉ dumpSep i := by
      unfold dumpSep
      split
      · split
        · decide
        · split <;> decide
      · decide
    simp only [dumpFrom, hexByte, List.mem_append, List.mem_cons, List.not_mem_nil, or_false, not_or]
    exact ⟨⟨h3, Ne.symm h1, Ne.symm h2⟩, ih _⟩

theorem dumpMessage_append (n : Nat) (a b : List Char) : dumpMessage n (a ++ b) = dumpMessage n a ++ b := by
  unfold dumpMessage
  generalize "unparsed data (current msg length is: ".toList = x
  generalize ") are:\n".toList = y
  generalize (toString n).toList = z
  simp only [List.append_assoc]

theorem dumpMessage_length (n : Nat) (a : List Char) : a.length ≤ (dumpMessage n a).length := by
  unfold dumpMessage
  generalize "unparsed data (current msg length is: ".toList = x
  generalize ") are:\n".toList = y
  generalize (toString n).toList = z
  simp only [List.length_append]
  omega

theorem no_nul_digits (n : Nat) : '\x00' ∉ (toString n).toList := by
  rw [Nat.toString_eq_repr, Nat.toList_repr]
  intro hm
  have := Nat.isDigit_of_mem_toDigits (by omega) (by omega) hm
  revert this; decide

theorem no_nul_message {n : Nat} {dump : List Char} (h : '\x00' ∉ dump) : '\x00' ∉ dumpMessage n dump := by
  have hd := no_nul_digits n
  have h1 : '\x00' ∉ "unparsed data (current msg length is: ".toList := by decide +kernel
  have h2 : '\x00' ∉ ") are:\n".toList := by decide +kernel
  unfold dumpMessage
  revert h1 h2 hd
  generalize "unparsed data (current msg length is: ".toList = x
  generalize ") are:\n".toList = y
  generalize (toString n).toList = z
  intro hd h1 h2
  simp only [List.mem_append, not_or]
  exact ⟨⟨⟨h1, hd⟩, h2⟩, h⟩

theorem logLine_append (head : Option (List Char)) (thread time x y : List Char) : logLine head thread time (x ++ y) = logLine head thread time x ++ y := by
  simp only [logLine, List.append_assoc]

theorem dumpLeft_one {data : Bytes} {cur remain : Nat} {text : List Char} (hle : remain ≤ data.length) (h : dumpLeft data cur remain = some [text]) :
    text = dumpOf (if cur = 2 ^ 64 - 1 then 0 else cur) (data.take remain) := by
  rw [dumpLeft_eq hle] at h
  split at h
  · simpa using h.symm
  · cases h

theorem line_short {head : Option (List Char)} {buf thread time rest : List Char} {n : Nat} {r : Bytes} (hn : 0 < buf.length)
    (h0 : '\x00' ∉ logLine head thread time []) (h : (logLine head thread time (dumpOf n r)).length < buf.length) :
    ∃ out, allOut head buf thread (time ++ '\n' :: '\x00' :: rest) (dumpOf n r) = some out ∧ cString out = some (logLine head thread time (dumpOf n r)) := by
  have e := logLine_append head thread time [] (dumpOf n r)
  rw [List.nil_append] at e
  have hz : '\x00' ∉ logLine head thread time (dumpOf n r) := by
    rw [e, List.mem_append, not_or]
    exact ⟨h0, no_nul_message (no_nul_from r 0)⟩
  obtain ⟨out, h1, _, h2⟩ := C82_log (buf := buf) (rest := rest) hn hz
  refine ⟨out, h1, ?_⟩
  rw [h2, List.take_of_length_le (by omega)]

/-- The line in the log (the level `head` is "error"; an array of `buf.length` characters) is the whole message about the first `remain` bytes of `data` if there is room for it. -/
theorem C101_in_the_log {head : Option (List Char)} {buf thread time rest text : List Char} {cur remain : Nat} {data : Bytes} (hn : 0 < buf.length)
    (h0 : '\x00' ∉ logLine head thread time []) (hle : remain ≤ data.length) (ht : dumpLeft data cur remain = some [text])
    (h : (logLine head thread time text).length < buf.length) :
    ∃ out, allOut head buf thread (time ++ '\n' :: '\x00' :: rest) text = some out ∧ cString out = some (logLine head thread time text) ∧
      ∃ announced dump, text = dumpMessage announced dump ∧ readHex dump = some (data.take remain) := by
  have e := dumpLeft_one hle ht
  subst e
  obtain ⟨out, h1, h2⟩ := line_short hn h0 h
  exact ⟨out, h1, h2, _, _, rfl, dumpFrom_read _⟩

/-- The full property fails: the log has room for 2047 characters (ST_ASIO_UNIFIED_OUT_BUF_NUM), three of which are needed per byte. Of 700 bytes or more that could not be unpacked the last ones are not
in the log: whatever the last byte is, the line is the same. -/
theorem C101_fails_long {head : Option (List Char)} {buf thread time rest ta tb : List Char} {cur : Nat} {r : Bytes} {a b : UInt8} (hb : buf.length = 2048)
    (h0 : '\x00' ∉ logLine head thread time []) (h : 700 ≤ r.length)
    (hta : dumpLeft (r ++ [a]) cur (r.length + 1) = some [ta]) (htb : dumpLeft (r ++ [b]) cur (r.length + 1) = some [tb]) :
    ∃ out, allOut head buf thread (time ++ '\n' :: '\x00' :: rest) ta = some out ∧
      ∃ out', allOut head buf thread (time ++ '\n' :: '\x00' :: rest) tb = some out' ∧ cString out = cString out' := by
  have hta := dumpLeft_one (by simp) hta
  have htb := dumpLeft_one (by simp) htb
  rw [List.take_of_length_le (by simp)] at hta htb
  subst hta htb
  generalize (if cur = 2 ^ 64 - 1 then 0 else cur) = n
  have hz : ∀ x, '\x00' ∉ logLine head thread time (dumpOf n (r ++ [x])) := by
    intro x
    have e := logLine_append head thread time [] (dumpOf n (r ++ [x]))
    rw [List.nil_append] at e
    rw [e, List.mem_append, not_or]
    exact ⟨h0, no_nul_message (no_nul_from _ 0)⟩
  obtain ⟨out, h1, _, h2⟩ := C82_log (buf := buf) (rest := rest) (by omega) (hz a)
  obtain ⟨out', h3, _, h4⟩ := C82_log (buf := buf) (rest := rest) (by omega) (hz b)
  refine ⟨out, h1, out', h3, ?_⟩
  rw [h2, h4]
  congr 1
  have cut : ∀ x, (logLine head thread time (dumpOf n (r ++ [x]))).take (buf.length - 1) = (logLine head thread time (dumpOf n r)).take (buf.length - 1) := by
    intro x
    have e2 : logLine head thread time (dumpOf n (r ++ [x])) = logLine head thread time (dumpOf n r) ++ dumpFrom (0 + r.length) [x] := by
      rw [← logLine_append]
      simp only [dumpOf, dumpFrom_append, dumpMessage_append]
    rw [e2]
    apply List.take_append_of_le_length
    have l1 := dumpFrom_length0 r
    have l2 := dumpMessage_length n (dumpFrom 0 r)
    have e := logLine_append head thread time [] (dumpOf n r)
    rw [List.nil_append] at e
    rw [e, List.length_append]
    unfold dumpOf
    omega
  rw [cut a, cut b]

/-- Non-vacuity of `C101_fails_long`: 701 bytes; the two messages are different. -/
theorem C101_fails_long_demo : ∃ ta tb, dumpLeft (List.replicate 700 0 ++ [1]) 9 (700 + 1) = some [ta] ∧ dumpLeft (List.replicate 700 0 ++ [2]) 9 (700 + 1) = some [tb] ∧ ta ≠ tb ∧
    '\x00' ∉ logLine (some "error".toList) "7".toList "Mon".toList [] := by
  have hlen : ∀ x : UInt8, (List.replicate 700 (0 : UInt8) ++ [x]).length = 701 := fun x => by rw [List.length_append, List.length_replicate]; rfl
  have hl : ∀ x : UInt8, dumpLeft (List.replicate 700 0 ++ [x]) 9 (700 + 1) = some [dumpOf 9 (List.replicate 700 0 ++ [x])] := by
    intro x
    rw [dumpLeft_eq (by rw [hlen]; omega), if_pos (by omega), if_neg (by omega), List.take_of_length_le (by rw [hlen]; omega)]
  refine ⟨_, _, hl 1, hl 2, ?_, by decide +kernel⟩
  intro h
  unfold dumpOf dumpMessage at h
  have h := List.append_cancel_left h
  have h := congrArg readHex h
  rw [dumpFrom_read, dumpFrom_read] at h
  have h := List.append_cancel_left (Option.some.inj h)
  revert h; decide

/-- Non-vacuity: a message, then a head that announces 9 bytes although 8 are allowed, in two pieces; the third byte of the rest came with the head. -/
theorem C101_demo : (receive (dumpOps (unpackerOps ⟨false, 8⟩) (fun _ _ v => v.dump)) false (Unp.init (List.replicate 8 7) true, []) [[0, 3, 5, 0], [9, 255]]).map (fun k => (k.log, k.u.2)) =
      some ([.msg [5], .unpackError], ["unparsed data (current msg length is: 9) are:\n00 09 ff".toList]) ∧
    readHex "00 09 ff".toList = some [0, 9, 255] ∧ dumpFrom 0 [0, 1, 2, 3, 4, 5, 6, 7, 8] = "00 01 02 03  04 05 06 07\n08".toList := by
  refine ⟨by decide +kernel, ?_, by decide +kernel⟩
  have := dumpFrom_read [0, 9, 255]
  have e : dumpFrom 0 [0, 9, 255] = "00 09 ff".toList := by decide +kernel
  rwa [e] at this

end StAsio
