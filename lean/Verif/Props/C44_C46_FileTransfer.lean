import Verif.Lemmas.FileTransfer3

/-!
# C44, C45, C46: the file transfer
-/

set_option autoImplicit false

namespace StAsio

/-! ## C44 -/

/-- C44: for every file size and every number of links, no two links request the same byte and together they request exactly the bytes of the file. -/
theorem C44_partition (len n : Nat) (hn : 0 < n) : Partition len (fileRequests len n) := fileRequests_partition len n hn

/-- Ten bytes over three links; two bytes over five links: the last link gets everything. -/
example : fileRequests 10 3 = [(0, 3), (3, 3), (6, 4)] ∧ fileRequests 2 5 = [(0, 2)] ∧ fileRequests 0 4 = [] := by decide

/-- C44: whatever the order in which the links send and receive their chunks and however the network cuts them, when every link has finished the destination is the source. -/
theorem C44_reproduce (src : Bytes) (n : Nat) (hn : 0 < n) (as : List FGetAct) (s : FGet) (h : FGet.Run src (FGet.init src n) as s)
    (hf : ∀ l ∈ s.links, l.unp.total = 0) : s.dst = src := by
  have inv := FGet.inv_run src n hn as s h
  have hp := (fileRequests_partition src.length n hn).2
  have key : ∀ p, p < src.length → s.dst[p]? = src[p]? := by
    intro p hlt
    obtain ⟨r, hr, h1, h2⟩ := (hp p).mp hlt
    obtain ⟨i, hi, rfl⟩ := List.mem_iff_getElem.mp hr
    have hl : i < s.links.length := by rw [inv.len]; exact hi
    have ok := inv.links i _ _ (List.getElem?_eq_getElem hi) (List.getElem?_eq_getElem hl)
    have ht := hf _ (List.getElem_mem hl)
    have hu := ok.unp
    exact ok.done p h1 (by omega)
  apply List.ext_getElem?
  intro p
  rcases Nat.lt_or_ge p src.length with g | g
  · exact key p g
  · rw [List.getElem?_eq_none g, List.getElem?_eq_none (Nat.le_trans inv.size g)]

/-- C44: a transfer cannot go on for ever, and it stops only when every link has finished. -/
theorem C44_completes (src : Bytes) (n : Nat) (hn : 0 < n) :
    (∃ B : Nat, ∀ (as : List FGetAct) (s : FGet), FGet.Run src (FGet.init src n) as s → as.length ≤ B) ∧
    ∀ (as : List FGetAct) (s : FGet), FGet.Run src (FGet.init src n) as s → (∀ a, s.step src a = none) → s.dst = src := by
  refine ⟨⟨(FGet.init src n).work, fun as s h => by have := FGet.bound src n hn as s h; omega⟩, ?_⟩
  intro as s h hstop
  apply C44_reproduce src n hn as s h
  intro l hl
  by_cases ht : l.unp.total = 0
  · exact ht
  · obtain ⟨a, s', hs⟩ := FGet.progress src n s (FGet.inv_run src n hn as s h) ⟨l, hl, ht⟩
    rw [hstop a] at hs; cases hs

/-- Five bytes over two links, the second link is faster, the network cuts the first chunk and delivers the last one first. -/
example : ∃ as s, FGet.Run [1, 2, 3, 4, 5] (FGet.init [1, 2, 3, 4, 5] 2) as s ∧ (∀ l ∈ s.links, l.unp.total = 0) ∧ s.dst = [1, 2, 3, 4, 5] :=
  ⟨[.send 1, .recv 1 2, .send 0, .recv 0 1, .recv 1 1, .recv 0 1], _, FGet.exec_run rfl, by decide, by decide⟩

/-! ## C45 -/

/-- C45, sending: a range inside the file is sent as chunks, none of them empty or longer than 65536 bytes, that are together exactly the range, and the sender ends as successful. -/
theorem C45_reader (f : Bytes) (off len : Nat) (h : off + len ≤ f.length) (fuel : Nat) (hfuel : len < fuel) :
    (FileBuf.chunks f fuel (FileBuf.new f off len)).1.flatten = slice f off len ∧ (FileBuf.chunks f fuel (FileBuf.new f off len)).2 = true ∧
    ∀ c ∈ (FileBuf.chunks f fuel (FileBuf.new f off len)).1, c ≠ [] ∧ c.length ≤ 65536 := by
  obtain ⟨h1, h2, h3⟩ := chunks_ok f fuel off (off + len) _ (BufOk.new f off len h) (by omega)
  refine ⟨?_, h1, h3⟩
  rw [h2]; congr 1; omega

/-- C45, sending: nothing is sent for a length that is not positive. -/
theorem C45_reader_nothing (f : Bytes) (off : Nat) (len : Int) (h : len ≤ 0) (fuel : Nat) : (FileBuf.chunks f fuel (FileBuf.new f off len)).1 = [] := by
  cases fuel with
  | zero => rfl
  | succ n => simp [FileBuf.chunks, FileBuf.new, FileBuf.read, h]

example : FileBuf.chunks [1, 2, 3, 4, 5] 9 (FileBuf.new [1, 2, 3, 4, 5] 1 3) = ([[2, 3, 4]], true) := by decide +kernel

/-- The premise of C45_reader is needed: a file shorter than the range makes the sender fail. -/
example : FileBuf.chunks [1, 2, 3] 9 (FileBuf.new [1, 2, 3] 1 3) = ([], false) := by decide +kernel

/-- C45, receiving: however the stream is cut, the receiver consumes a prefix of the stream that is not longer than the requested number of bytes and writes exactly these bytes at its position; what it leaves of the stream begins right after them. If enough bytes and reads come, it consumes exactly the requested number and is finished. -/
theorem C45_writer (f : Bytes) (pos total : Nat) (stream : Bytes) (ks : List Nat) :
    ∃ j, j ≤ total ∧ j ≤ stream.length ∧ FileUnp.run f ⟨total, pos⟩ stream ks = (overwrite f pos (stream.take j), ⟨(total - j : Nat), pos + j⟩, stream.drop j) ∧
      (total ≤ ks.length → total ≤ stream.length → j = total) := by
  obtain ⟨j, h1, h2, h3, h4⟩ := unp_run ks f ⟨total, pos⟩ stream (by simp only []; omega)
  simp only at h1 h3 h4
  refine ⟨j, by omega, h2, ?_, fun a b => by have := h4 (by omega) (by omega); omega⟩
  rw [h3]; congr 3; omega

/-- C45, receiving: the receiver never lets more bytes be stored than its buffer of 65536 bytes holds, nor more than are left of the range. -/
theorem C45_room (total : Nat) (pos : Nat) : (FileUnp.mk total pos).room ≤ 65536 ∧ (FileUnp.mk total pos).room ≤ total ∧ (0 < total → 0 < (FileUnp.mk total pos).room) := by
  rw [FileUnp.room_eq _ (by simp only []; omega)]
  simp only [maxTransfer]
  omega

/-- Three bytes of a stream of five in two reads: the last two are left for the control protocol. -/
example : FileUnp.run [9, 9] ⟨3, 1⟩ [1, 2, 3, 4, 5] [2, 7, 4] = ([9, 1, 2, 3], ⟨0, 4⟩, [4, 5]) := by decide

/-- C45, both ends: what the sender sends of a range, followed by anything, is written by the receiver at the same place, and the rest is left. -/
theorem C45_end_to_end (src dst rest : Bytes) (off len fuel : Nat) (ks : List Nat) (h : off + len ≤ src.length) (hfuel : len < fuel) (hk : len ≤ ks.length) :
    FileUnp.run dst ⟨len, off⟩ ((FileBuf.chunks src fuel (FileBuf.new src off len)).1.flatten ++ rest) ks = (overwrite dst off (slice src off len), ⟨0, off + len⟩, rest) := by
  rw [(C45_reader src off len h fuel hfuel).1]
  have hl : (slice src off len).length = len := by rw [slice_length]; omega
  obtain ⟨j, _, _, h3, h4⟩ := C45_writer dst off len (slice src off len ++ rest) ks
  have hj : j = len := h4 hk (by rw [List.length_append, hl]; omega)
  subst hj
  rw [h3]
  have e1 : (slice src off j ++ rest).take j = slice src off j := List.take_left' hl
  have e2 : (slice src off j ++ rest).drop j = rest := List.drop_left' hl
  rw [e1, e2]; simp

/-! ## C46 -/

/-- C46, everything but three kinds of messages: the observer of `FMon` accepts every history in which no message comes while a file is being sent, no download request has a sum of offset and length beyond 64 bits and no upload request has a negative offset or length. That is: the server serves only ranges inside the file that is open, reads only what is left of that range, writes only what is left of the accepted range, stores no more bytes than its buffer holds and does nothing undefined. -/
theorem C46_safe_partial (as : List FSrvAct) (es : List FSrvEv) (s : FSrv) (h : FSrv.Run FSrv.init as es s) (ha : ∀ a ∈ as, a.harmless = true) :
    (FMon.run FMon.init es).isSome = true := by
  obtain ⟨m, h1, _⟩ := FSrv.inv_run as es s h ha
  rw [h1]; rfl

theorem FPart.read_noServe (b : FPart) (f : Option Nat) (ok : Bool) (off len : Int) : FSrvEv.serve off len ∉ (b.read f ok).1 := by
  simp only [FPart.read]
  repeat' split
  all_goals simp

theorem FSrv.transEnd_noServe (s : FSrv) (r : Bool) (off len : Int) : FSrvEv.serve off len ∉ (s.transEnd r).1 := by
  simp only [FSrv.transEnd, FSrv.clear]
  split <;> simp

/-- C46: in any state and for any message, a range is served only for a message of exactly 17 bytes with order 1 while a file is open, and the range is the one in the message and inside the file. -/
theorem C46_serve_only (s s' : FSrv) (a : FSrvAct) (es : List FSrvEv) (off len : Int) (hs : s.step a = some (es, s')) (he : .serve off len ∈ es) :
    ∃ tag m fopen ok, a = .msg tag m fopen ok ∧ m.length = 17 ∧ m.head? = some 1 ∧ off = leInt64 ((m.drop 1).take 8) ∧ len = leInt64 ((m.drop 9).take 8) ∧
      s.file ≠ none ∧ 0 ≤ off ∧ 0 < len ∧ off + len ≤ s.flen := by
  have nt := fun (s : FSrv) (r : Bool) => s.transEnd_noServe r off len
  have nr := fun (b : FPart) (f : Option Nat) (ok : Bool) => b.read_noServe f ok off len
  cases a with
  | msg tag m fopen ok =>
    simp only [FSrv.step] at hs
    split at hs
    · simp only [Option.some.injEq] at hs
      have e1 : es = (s.handleMsg m fopen ok).1 := by rw [hs]
      rw [e1] at he
      simp only [FSrv.handleMsg] at he
      split at he
      · simp only [FSrv.whileBusy] at he
        split at he
        · exact absurd he (nt _ _)
        · split at he
          · exact absurd he (nt _ _)
          · cases he
      · split at he
        · cases he
        · split at he
          · simp only [FSrv.getInfo] at he
            split at he
            · cases he
            · have := nt s true
              cases fopen <;> simp [this] at he
          · rename_i h1
            simp only [FSrv.getRange] at he
            split at he
            · rename_i x hx
              split at he
              · rename_i hp
                split at he
                · rename_i hpos
                  split at he
                  · simp at he
                  · split at he
                    · rename_i hle
                      have hev : off = msgOff m ∧ len = msgLen m := by
                        split at he
                        · simp only [List.mem_cons, FSrvEv.serve.injEq] at he
                          rcases he with g | g
                          · exact g
                          · exact absurd g (nr _ _ _)
                        · simp only [List.mem_append, List.mem_cons, FSrvEv.serve.injEq] at he
                          rcases he with (g | g) | g
                          · exact g
                          · exact absurd g (nr _ _ _)
                          · exact absurd g (nt _ _)
                      refine ⟨tag, m, fopen, ok, rfl, hp.2, h1, hev.1, hev.2, by rw [hx]; simp, ?_, ?_, ?_⟩ <;> (try rw [hev.1]) <;> (try rw [hev.2]) <;> omega
                    · exact absurd he (nt _ _)
                · exact absurd he (nt _ _)
              · cases he
            · cases he
          · simp only [FSrv.truncate] at he
            split at he
            · cases he
            · have := nt s true
              cases fopen <;> simp [this] at he
          · simp only [FSrv.put] at he
            split at he
            · have := nt s true
              cases fopen <;> simp [this] at he
            · cases he
          · cases he
    · cases hs
  | replySent =>
    simp only [FSrv.step] at hs
    split at hs
    · cases hs; cases he
    · cases hs
  | chunkSent ok =>
    simp only [FSrv.step] at hs
    split at hs
    · rename_i b hb
      simp only [Option.some.injEq] at hs
      have e1 : es = (s.chunkSent b ok).1 := by rw [hs]
      rw [e1] at he
      simp only [FSrv.chunkSent] at he
      split at he
      · exact absurd he (nt s false)
      · split at he
        · exact absurd he (nr _ _ _)
        · simp only [List.mem_append] at he
          rcases he with g | g
          · exact absurd g (nr _ _ _)
          · exact absurd g (nt _ _)
    · cases hs
  | data n =>
    simp only [FSrv.step] at hs
    split at hs
    · split at hs
      · simp only [Option.some.injEq, Prod.mk.injEq] at hs
        rw [← hs.1] at he
        simp only [List.mem_cons] at he
        rcases he with g | g | g
        · cases g
        · split at g <;> cases g
        · simp only [FSrv.whileBusy] at g
          split at g
          · exact absurd g (nt _ _)
          · cases g
      · cases hs
    · cases hs

/-- C46: a well-formed request for a range inside the file that is open for reading is served, from its first byte. -/
theorem C46_serve_valid (as : List FSrvAct) (es : List FSrvEv) (s : FSrv) (flen : Nat) (m : Bytes) (fopen : Option Nat) (off len : Int)
    (h : FSrv.Run FSrv.init as es s) (ha : ∀ a ∈ as, a.harmless = true) (hm : FMon.run FMon.init es = some ⟨some flen, false, none⟩)
    (h1 : m.length = 17) (h2 : m.head? = some 1) (ho : off = leInt64 ((m.drop 1).take 8)) (hl : len = leInt64 ((m.drop 9).take 8))
    (h3 : 0 ≤ off) (h4 : 0 < len) (h5 : off + len ≤ flen) (h6 : (flen : Int) < 2 ^ 63) :
    ∃ n s', 0 < n ∧ s.step (.msg .fine m fopen true) = some ([.serve off len, .read off n], s') := by
  obtain ⟨m', e, inv⟩ := FSrv.inv_run as es s h ha
  rw [hm] at e; cases e
  have hst : s.st = .prepare ∧ s.flen = flen ∧ s.file ≠ none := by
    unfold FSrvInv at inv
    split at inv
    · obtain ⟨_, _, _, e⟩ := inv; cases e
    · rename_i hst; obtain ⟨e1, _, _, e⟩ := inv
      simp only [FMon.mk.injEq, Option.some.injEq] at e
      exact ⟨hst, e.1.symm, e1⟩
    · rcases inv with ⟨b, _, _, _, e, _⟩ | ⟨u, _, _, _, e, _⟩ <;> cases e
  obtain ⟨hst, hfl, hf⟩ := hst
  obtain ⟨x, hx⟩ := Option.ne_none_iff_exists'.mp hf
  have hoff : msgOff m = off := ho.symm
  have hlen : msgLen m = len := hl.symm
  have hcl : s.classify m = .fine := by
    simp only [FSrv.classify, hst]
    rw [if_neg (by simp), if_neg (by rw [hoff, hlen]; omega), if_neg (by rw [h2]; simp)]
  obtain ⟨n, e1, n0, _, _⟩ := FPart.read_ok ⟨x, off, len⟩ s true flen hx h3 h4 h5
  refine ⟨n, { s with st := .busy, buf := some ⟨x, off + n, len - n⟩ }, n0, ?_⟩
  simp only [FSrv.step, hcl, if_true, FSrv.handleMsg, h2]
  rw [if_neg (by rw [hst]; simp), if_neg (by omega)]
  simp only [FSrv.getRange, hx, hoff, hlen]
  rw [if_pos ⟨hst, h1⟩, if_pos ⟨h3, h4⟩, if_neg (by omega), if_pos (by omega)]
  rw [hx] at e1
  simp only at e1
  rw [e1]
  simp

/-- A download of bytes 2 to 6 of a file with 10 bytes, then an upload: the hypotheses are met. -/
example : ∃ as es s, FSrv.Run FSrv.init as es s ∧ (∀ a ∈ as, a.harmless = true) ∧ .serve 2 5 ∈ es ∧ .read 2 5 ∈ es ∧ .accept 1 4 ∈ es ∧ .write 1 3 ∈ es ∧ .write 4 1 ∈ es :=
  ⟨[.msg .fine [0, 97] (some 10) true, .replySent, .msg .fine [1, 2,0,0,0,0,0,0,0, 5,0,0,0,0,0,0,0] none true, .chunkSent true,
    .msg .fine [11, 1,0,0,0,0,0,0,0, 4,0,0,0,0,0,0,0, 97] (some 0) true, .data 3, .data 1], _, _, FSrv.exec_run rfl, by decide +kernel, by decide +kernel, by decide +kernel, by decide +kernel, by decide +kernel, by decide +kernel⟩

/-- C46 fails: any message that comes while a file is being sent closes the file; when the chunk has been sent, the closed file is read. -/
theorem C46_fails_while_sending : ∃ as es s, FSrv.Run FSrv.init as es s ∧ .ub ∈ es ∧ ∀ a ∈ as, a.harmless = true ∨ ∃ m, a = .msg .whileSending m none true :=
  ⟨[.msg .fine [0, 97] (some 100000) true, .replySent, .msg .fine [1, 0,0,0,0,0,0,0,0, 0,0x80,1,0,0,0,0,0] none true, .msg .whileSending [2, 104, 105] none true, .chunkSent true], _, _, FSrv.exec_run rfl, by decide +kernel, by
    intro a ha
    simp only [List.mem_cons, List.not_mem_nil, or_false] at ha
    rcases ha with rfl | rfl | rfl | rfl | rfl
    · exact Or.inl rfl
    · exact Or.inl rfl
    · exact Or.inl rfl
    · exact Or.inr ⟨_, rfl⟩
    · exact Or.inl rfl⟩

/-- C46 fails: a download request for offset 2^63 - 1 and length 1 overflows. -/
theorem C46_fails_overflow : ∃ as es s, FSrv.Run FSrv.init as es s ∧ .ub ∈ es ∧ ∃ m, leInt64 ((m.drop 1).take 8) = 2 ^ 63 - 1 ∧ leInt64 ((m.drop 9).take 8) = 1 ∧ as = [.msg .fine [0, 97] (some 10) true, .msg .overflow m none true] :=
  ⟨_, _, _, FSrv.exec_run (as := [.msg .fine [0, 97] (some 10) true, .msg .overflow [1, 255,255,255,255,255,255,255,127, 1,0,0,0,0,0,0,0] none true]) rfl, by decide +kernel,
    ⟨[1, 255,255,255,255,255,255,255,127, 1,0,0,0,0,0,0,0], by decide +kernel, by decide +kernel, rfl⟩⟩

/-- C46 fails: after an upload request with length -1, the server lets the network store more bytes than its buffer of 65536 bytes holds. -/
theorem C46_fails_put_length : ∃ as es s, FSrv.Run FSrv.init as es s ∧ .store 65537 ∈ es ∧ ∃ m, leInt64 ((m.drop 9).take 8) = -1 ∧ as = [.msg .badPut m (some 0) true, .data 65537] :=
  ⟨_, _, _, FSrv.exec_run (as := [.msg .badPut [11, 0,0,0,0,0,0,0,0, 255,255,255,255,255,255,255,255, 97] (some 0) true, .data 65537]) rfl, by decide +kernel,
    ⟨[11, 0,0,0,0,0,0,0,0, 255,255,255,255,255,255,255,255, 97], by decide +kernel, rfl⟩⟩

/-- C46 fails: after an upload request for offset -1, the server writes at the beginning of the file. -/
theorem C46_fails_put_offset : ∃ as es s, FSrv.Run FSrv.init as es s ∧ .accept (-1) 4 ∈ es ∧ .write 0 4 ∈ es :=
  ⟨[.msg .badPut [11, 255,255,255,255,255,255,255,255, 4,0,0,0,0,0,0,0, 97] (some 0) true, .data 4], _, _, FSrv.exec_run rfl, by decide +kernel, by decide +kernel⟩

/-- Number of answers in a history. -/
def replyCount (es : List FSrvEv) : Nat := es.countP (fun e => match e with | .reply _ => true | _ => false)

theorem replyCount_append (es fs : List FSrvEv) : replyCount (es ++ fs) = replyCount es + replyCount fs := List.countP_append

theorem FPart.read_replies (b : FPart) (f : Option Nat) (ok : Bool) : replyCount (b.read f ok).1 = 0 := by
  simp only [FPart.read]; split <;> rfl

theorem FSrv.transEnd_replies (s : FSrv) (r : Bool) : replyCount (s.transEnd r).1 = 0 ∧ (s.transEnd r).2.replies = s.replies := by
  simp only [FSrv.transEnd, FSrv.clear]; split <;> exact ⟨rfl, rfl⟩

theorem FSrv.whileBusy_replies (s : FSrv) : replyCount s.whileBusy.1 = 0 ∧ s.whileBusy.2.replies = s.replies := by
  simp only [FSrv.whileBusy]
  repeat' split
  all_goals first | exact FSrv.transEnd_replies _ _ | exact ⟨rfl, rfl⟩

/-- Answers are counted, and there is at most one that has not been sent. -/
def FSrv.Rep (s : FSrv) (r : List FSrvEv × FSrv) : Prop := r.2.replies = s.replies + replyCount r.1 ∧ (s.replies ≤ 1 → r.2.replies ≤ 1)

theorem FSrv.rep_same {s : FSrv} {r : List FSrvEv × FSrv} (h1 : replyCount r.1 = 0) (h2 : r.2.replies = s.replies) : s.Rep r := by
  unfold FSrv.Rep; omega

theorem FSrv.rep_transEnd (s : FSrv) (b : Bool) : s.Rep (s.transEnd b) := FSrv.rep_same (s.transEnd_replies b).1 (s.transEnd_replies b).2

theorem FSrv.rep_answer {s : FSrv} {es fs : List FSrvEv} {t : FSrv} (hn : s.isSending = false) (he : replyCount es = 0) (hf : replyCount fs = 1) (ht : t.replies = s.replies + 1) : s.Rep (es ++ fs, t) := by
  have h0 : s.replies = 0 := by simp [FSrv.isSending] at hn; exact hn.2
  simp only [FSrv.Rep, replyCount_append]; omega

theorem FSrv.rep_getInfo (s : FSrv) (fopen : Option Nat) : s.Rep (s.getInfo fopen) := by
  have h := s.transEnd_replies true
  simp only [FSrv.getInfo]
  split
  · exact FSrv.rep_same rfl rfl
  · rename_i hn
    split <;> exact FSrv.rep_answer (by simpa using hn) h.1 rfl (by simp [h.2])

theorem FSrv.rep_truncate (s : FSrv) (fopen : Option Nat) : s.Rep (s.truncate fopen) := by
  have h := s.transEnd_replies true
  simp only [FSrv.truncate]
  split
  · exact FSrv.rep_same rfl rfl
  · rename_i hn
    split <;> exact FSrv.rep_answer (by simpa using hn) h.1 rfl (by simp [h.2])

theorem FSrv.rep_put (s : FSrv) (m : Bytes) (fopen : Option Nat) : s.Rep (s.put m fopen) := by
  have h := s.transEnd_replies true
  simp only [FSrv.put]
  split
  · rename_i hn
    split <;> exact FSrv.rep_answer hn.2 h.1 rfl (by simp [h.2])
  · exact FSrv.rep_same rfl rfl

theorem FSrv.rep_getRange (s : FSrv) (m : Bytes) (ok : Bool) : s.Rep (s.getRange m ok) := by
  have h := s.rep_transEnd true
  simp only [FSrv.getRange]
  split
  · rename_i hd _
    have h2 := FPart.read_replies ⟨hd, msgOff m, msgLen m⟩ s.file ok
    have h3 := FSrv.transEnd_replies { s with st := .busy } true
    split
    · split
      · split
        · exact FSrv.rep_same rfl rfl
        · split
          · split
            · exact FSrv.rep_same h2 rfl
            · refine FSrv.rep_same ?_ h3.2
              have : replyCount (FSrvEv.serve (msgOff m) (msgLen m) :: (FPart.read ⟨hd, msgOff m, msgLen m⟩ s.file ok).1) = 0 := h2
              rw [replyCount_append, this, h3.1]
          · exact h
      · exact h
    · exact FSrv.rep_same rfl rfl
  · exact FSrv.rep_same rfl rfl

theorem FSrv.rep_handleMsg (s : FSrv) (m : Bytes) (fopen : Option Nat) (ok : Bool) : s.Rep (s.handleMsg m fopen ok) := by
  simp only [FSrv.handleMsg]
  split
  · exact FSrv.rep_same s.whileBusy_replies.1 s.whileBusy_replies.2
  · split
    · exact FSrv.rep_same rfl rfl
    · split
      · exact s.rep_getInfo fopen
      · exact s.rep_getRange m ok
      · exact s.rep_truncate fopen
      · exact s.rep_put m fopen
      · exact FSrv.rep_same rfl rfl

theorem FSrv.rep_chunkSent (s : FSrv) (b : FPart) (ok : Bool) : s.Rep (s.chunkSent b ok) := by
  have h := s.transEnd_replies false
  have h2 := FPart.read_replies b s.file ok
  simp only [FSrv.chunkSent]
  split
  · exact FSrv.rep_same h.1 h.2
  · split
    · exact FSrv.rep_same h2 rfl
    · refine FSrv.rep_same ?_ h.2
      rw [replyCount_append, h2, h.1]

/-- **C46** (one answer at a time): every answer was asked for by a message, and a request is answered only after the last answer has been sent: at any time at most one answer is on its way. Malformed and dangerous messages included. -/
theorem C46_one_reply (as : List FSrvAct) (es : List FSrvEv) (s : FSrv) (h : FSrv.Run FSrv.init as es s) :
    as.count .replySent ≤ replyCount es ∧ replyCount es ≤ as.count .replySent + 1 ∧ (replyCount es = as.count .replySent + 1 ↔ s.step .replySent ≠ none) := by
  suffices H : replyCount es = as.count .replySent + s.replies ∧ s.replies ≤ 1 by
    refine ⟨by omega, by omega, ?_⟩
    simp only [FSrv.step]
    split <;> simp <;> omega
  generalize h0 : FSrv.init = s0 at h
  induction h with
  | nil => subst h0; exact ⟨rfl, by decide⟩
  | snoc s1 s2 as a es fs _ hs ih =>
    obtain ⟨i1, i2⟩ := ih
    rw [replyCount_append, List.count_append]
    cases a with
    | msg tag m fopen ok =>
      simp only [FSrv.step] at hs
      split at hs
      · simp only [Option.some.injEq] at hs
        have := s1.rep_handleMsg m fopen ok
        rw [hs] at this
        simp only [FSrv.Rep] at this
        simp; omega
      · cases hs
    | replySent =>
      simp only [FSrv.step] at hs
      split at hs
      · cases hs; simp [replyCount] at i1 ⊢; omega
      · cases hs
    | chunkSent ok =>
      simp only [FSrv.step] at hs
      split at hs
      · rename_i b _
        simp only [Option.some.injEq] at hs
        have := s1.rep_chunkSent b ok
        rw [hs] at this
        simp only [FSrv.Rep] at this
        simp; omega
      · cases hs
    | data n =>
      simp only [FSrv.step] at hs
      split at hs
      · split at hs
        · rename_i u _ _
          simp only [Option.some.injEq, Prod.mk.injEq] at hs
          have h := FSrv.whileBusy_replies { s1 with unp := some { u with pos := u.pos + n, total := u.total - n } }
          obtain ⟨rfl, rfl⟩ := hs
          have e : ∀ x : List FSrvEv, replyCount (FSrvEv.store n :: (if s1.file = some u.h then FSrvEv.write u.pos n else .ub) :: x) = replyCount x := by
            intro x; split <;> rfl
          rw [e, h.1, h.2]
          simp; omega
        · cases hs
      · cases hs

/-- Non-vacuity: a file is truncated; the next request is dropped since the answer to the first has not been sent, the third is answered. -/
theorem C46_one_reply_demo : ∃ es s, FSrv.Run FSrv.init [.msg .fine [10, 97] (some 0) true, .msg .fine [0, 97] (some 5) true, .replySent, .msg .fine [0, 97] (some 5) true] es s ∧
    es = [.openedW, .closed, .reply 10, .opened 5, .reply 0] := ⟨_, _, FSrv.exec_run rfl, by decide +kernel⟩

end StAsio
