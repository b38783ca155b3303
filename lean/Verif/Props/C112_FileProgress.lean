import Verif.Spec.FileProgress
import Verif.Lemmas.FileProgress

/-!
# C112: what file_client reports about a transfer is true
-/

set_option autoImplicit false

namespace StAsio

/-- C112, both directions, whatever gets lost or fails: the percentage shown never falls and never exceeds 100, and the end is reported exactly when the percentage is 100. -/
theorem C112_percent (put : Bool) (src : Bytes) (n : Nat) (hn : 0 < n) (hsrc : src ≠ []) (as : List FProgAct) (s : FProg) (h : FProg.Run put src (FProg.init put src n) as s) :
    s.percent src.length ≤ 100 ∧ (s.finished src.length = true ↔ s.percent src.length = 100) ∧
    ∀ a s', s.step put src a = some s' → s.percent src.length ≤ s'.percent src.length := by
  have hc := FProg.count_run put src n hn as s h
  have hm := hc.sum
  have hpos : 0 < src.length := by cases src with | nil => exact absurd rfl hsrc | cons a l => simp
  refine ⟨?_, ?_, ?_⟩
  · simp only [FProg.percent]
    exact Nat.le_of_lt_succ ((Nat.div_lt_iff_lt_mul hpos).mpr (by omega))
  · simp only [FProg.finished, FProg.percent, decide_eq_true_eq]
    constructor
    · intro hf
      have e : s.moved = src.length := by omega
      rw [e, Nat.mul_comm, Nat.mul_div_cancel _ hpos]
    · intro hf hlt
      have := (Nat.div_lt_iff_lt_mul (x := s.moved * 100) (y := 100) hpos).mpr (by omega)
      omega
  · intro a s' hs
    have := (FProg.count_step put src s s' a hc hs).2
    exact Nat.div_le_div_right (by omega)

/-- C112, downloads, as long as fwrite does not fail (C112_fails_write), even if connections get lost: at any time at least as many bytes are at their place in the destination as have been counted, and once the end is reported the destination is the source. -/
theorem C112_get_partial (src : Bytes) (n : Nat) (hn : 0 < n) (as : List FProgAct) (s : FProg) (h : FProg.Run false src (FProg.init false src n) as s)
    (hw : ∀ i k, FProgAct.badWrite i k ∉ as) : s.moved ≤ rightBytes src s.g.dst ∧ (s.finished src.length = true → s.g.dst = src) := by
  have hc := FProg.count_run false src n hn as s h
  have inv := FProg.inv_run false src n hn as s h hw
  refine ⟨by have h1 := FProg.right_written false src n hn s inv hc; have h2 := hc.sum; simp only [rightBytes]; omega, ?_⟩
  intro hf
  apply FGet.inv_done src n hn s.g inv
  intro l hl
  have hm := hc.sum
  simp only [FProg.finished, decide_eq_true_eq] at hf
  have h0 := (sum_map_zero (FLink.todo false) s.g.links).mp (by omega) l hl
  have hs := (hc.sane l hl).1
  simp only [FLink.todo, Bool.false_eq_true, if_false] at h0
  omega

/-- C112, both directions, as long as fwrite does not fail: when every receiver has stored its part the end is reported. -/
theorem C112_reported_partial (put : Bool) (src : Bytes) (n : Nat) (hn : 0 < n) (as : List FProgAct) (s : FProg) (h : FProg.Run put src (FProg.init put src n) as s)
    (hw : ∀ i k, FProgAct.badWrite i k ∉ as) (hf : ∀ l ∈ s.g.links, l.unp.total = 0) : s.finished src.length = true ∧ s.g.dst = src := by
  have hc := FProg.count_run put src n hn as s h
  have inv := FProg.inv_run put src n hn as s h hw
  refine ⟨?_, FGet.inv_done src n hn s.g inv hf⟩
  have hm := hc.sum
  have h0 : (s.g.links.map (FLink.todo put)).sum = 0 := by
    rw [sum_map_zero]
    intro l hl
    have ht := hf l hl
    cases put with
    | false => simp [FLink.todo, ht]
    | true =>
      obtain ⟨i, hi, rfl⟩ := List.mem_iff_getElem.mp hl
      have hr : i < (fileRequests src.length n).length := by rw [← inv.len]; exact hi
      have ok := inv.links i _ _ (List.getElem?_eq_getElem hr) (List.getElem?_eq_getElem hi)
      have u := ok.unp; have b1 := ok.buf.total; have b2 := ok.buf.pos; have b3 := ok.buf.le
      simp only [FLink.todo, if_true]; omega
  simp only [FProg.finished, decide_eq_true_eq]; omega

/-- C112, uploads (and downloads) of which no link gets lost and no fwrite fails: as long as the destination is not the source, a chunk can be sent or received; so when everything under way has arrived the report is true. -/
theorem C112_put_partial (put : Bool) (src : Bytes) (n : Nat) (hn : 0 < n) (as : List FProgAct) (s : FProg) (h : FProg.Run put src (FProg.init put src n) as s)
    (hw : ∀ i k, FProgAct.badWrite i k ∉ as) (hl : ∀ i, FProgAct.lose i ∉ as ∧ FProgAct.cut i ∉ as)
    (hstop : (∀ i, s.step put src (.send i) = none) ∧ ∀ i k, s.step put src (.recv i k) = none) : s.finished src.length = true ∧ s.g.dst = src := by
  have inv := FProg.inv_run put src n hn as s h hw
  have hd := FProg.alive_run put src n as s h hw hl
  apply C112_reported_partial put src n hn as s h hw
  intro l hm
  by_cases ht : l.unp.total = 0
  · exact ht
  · obtain ⟨a, g, hs⟩ := FGet.progress src n s.g inv ⟨l, hm, ht⟩
    cases a with
    | send i => have := hstop.1 i; simp [FProg.step, hd.1, hd.2, hs] at this
    | recv i k => have := hstop.2 i k; simp [FProg.step, hd.1, hd.2, hs] at this

/-- C112, uploads, as long as fwrite does not fail, even if connections get lost: how wrong the report can be. Whatever has been counted is at its place, under way in the network, or in a chunk that has been read but not sent, of which every link has one of at most 65536 bytes. -/
theorem C112_put_bound (src : Bytes) (n : Nat) (hn : 0 < n) (as : List FProgAct) (s : FProg) (h : FProg.Run true src (FProg.init true src n) as s)
    (hw : ∀ i k, FProgAct.badWrite i k ∉ as) :
    s.moved ≤ rightBytes src s.g.dst + (s.g.links.map (fun l => l.wire.length)).sum + (s.g.links.map (fun l => l.buf.data.length)).sum ∧ ∀ l ∈ s.g.links, l.buf.data.length ≤ 65536 := by
  have hc := FProg.count_run true src n hn as s h
  have inv := FProg.inv_run true src n hn as s h hw
  have h1 := FProg.right_written true src n hn s inv hc
  obtain ⟨h2, h3⟩ := FProg.under_way true src n s inv hc
  have h4 := hc.sum
  exact ⟨by simp only [rightBytes]; omega, h3⟩

/-- Nothing happens any more when both ends of all links are lost. -/
theorem FProg.stuck (put : Bool) (src : Bytes) (s : FProg) (hd : ∀ i, i < s.g.links.length → i ∈ s.dead ∧ i ∈ s.gone) (a : FProgAct) : s.step put src a = none := by
  have key : ∀ i, i ∉ s.dead ∨ i ∉ s.gone → s.g.links[i]? = none := by
    intro i hi
    rw [List.getElem?_eq_none_iff]
    rcases Nat.lt_or_ge i s.g.links.length with h | h
    · rcases hi with hi | hi
      · exact absurd (hd i h).1 hi
      · exact absurd (hd i h).2 hi
    · exact h
  cases a with
  | send i =>
    simp only [FProg.step]
    split
    · rfl
    · rename_i h; simp [FGet.step, key i (Or.inl h)]
  | recv i k =>
    simp only [FProg.step]
    split
    · rfl
    · rename_i h; simp [FGet.step, key i (Or.inr h)]
  | badWrite i k =>
    simp only [FProg.step]
    split
    · rfl
    · rename_i h; simp [key i (Or.inr h)]
  | lose i =>
    simp only [FProg.step]
    split
    · rfl
    · rename_i h
      have h1 := Nat.lt_of_not_le (fun g => h (Or.inr g))
      exact absurd (Or.inl (hd i h1).1) h
  | cut i =>
    simp only [FProg.step]
    split
    · rfl
    · rename_i h
      have h1 := Nat.lt_of_not_le (fun g => h (Or.inr g))
      exact absurd (Or.inl (hd i h1).2) h

/-- C112 is false of uploads: the counter counts what has been read from the file, not what has been stored. For every file that is not empty and that fits in one chunk, uploaded over one link, the end is reported before a byte was sent; if the connection is lost then, the file of the server stays empty for ever. -/
theorem C112_fails_put (src : Bytes) (hsrc : src ≠ []) (hlen : src.length ≤ 65536) :
    ∃ s, FProg.Run true src (FProg.init true src 1) [] (FProg.init true src 1) ∧ (FProg.init true src 1).finished src.length = true ∧
      FProg.Run true src (FProg.init true src 1) [.lose 0, .cut 0] s ∧ s.g.dst = [] ∧ s.finished src.length = true ∧ ∀ a, s.step true src a = none := by
  have hpos : 0 < src.length := by cases src with | nil => exact absurd rfl hsrc | cons a l => simp
  have hreq : fileRequests src.length 1 = [(0, src.length)] := by
    rw [fileRequests_eq]; simp [partOf, List.range_succ, hpos]
  have hc := (FProg.count_init true src 1 (by omega)).sum
  have hl : (FGet.init src 1).links = [⟨FileBuf.new src 0 src.length, [], ⟨src.length, 0⟩⟩] := by
    simp [FGet.init, hreq]
  have ht : (FileBuf.new src 0 (src.length : Int)).total = 0 := by
    have hs : (slice src 0 src.length).length = src.length := by simp [slice]
    simp only [FileBuf.new, FileBuf.read]
    have hm : ¬ ((src.length : Int) > (maxTransfer : Int)) := by simp only [maxTransfer]; omega
    rw [if_neg (by omega)]
    simp only [if_neg hm, Int.toNat_natCast]
    rw [if_neg (by omega)]
    simp
  have hf : (FProg.init true src 1).finished src.length = true := by
    simp only [FProg.init, hl, List.map_cons, List.map_nil, List.sum_cons, List.sum_nil, FLink.todo, if_true, ht] at hc
    simp only [FProg.finished, FProg.init, hl, List.map_cons, List.map_nil, List.sum_cons, List.sum_nil, if_true, decide_eq_true_eq]
    simp at hc; omega
  refine ⟨{ FProg.init true src 1 with dead := [0], gone := [0] }, .nil _, hf, ?_, rfl, hf, ?_⟩
  · refine .snoc _ { FProg.init true src 1 with dead := [0] } _ [.lose 0] _ (.snoc _ _ _ [] _ (.nil _) ?_) ?_
    · simp [FProg.step, FProg.init, hl]
    · simp [FProg.step, FProg.init, hl]
  · apply FProg.stuck
    intro i hi
    simp only [FProg.init, hl, List.length_singleton] at hi
    simp; omega

/-- C112 is false of downloads to a full disk: bytes are counted before fwrite is called, so the end is reported although a byte is missing; no further step can add it. -/
theorem C112_fails_write : ∃ s, FProg.Run false [1, 2, 3] (FProg.init false [1, 2, 3] 2) [.send 0, .send 1, .recv 0 1, .badWrite 1 2, .lose 1, .lose 0, .cut 0] s ∧
    s.finished 3 = true ∧ s.percent 3 = 100 ∧ s.g.dst = [1] ∧ ∀ a, s.step false [1, 2, 3] a = none := by
  refine ⟨_, FProg.exec_run rfl, by decide +kernel, by decide +kernel, by decide +kernel, ?_⟩
  apply FProg.stuck
  decide +kernel

/-- Non-vacuity: a download over two links of which one is lost by its sender while its last byte is under way; the percentages go up, and at 100% the destination is the source. -/
theorem C112_get_demo : ∃ s s', FProg.Run false [1, 2, 3] (FProg.init false [1, 2, 3] 2) [.send 0, .send 1, .recv 1 1, .recv 0 1, .lose 1] s ∧ s.percent 3 = 66 ∧ rightBytes [1, 2, 3] s.g.dst = 2 ∧
    FProg.Run false [1, 2, 3] (FProg.init false [1, 2, 3] 2) [.send 0, .send 1, .recv 1 1, .recv 0 1, .lose 1, .recv 1 1] s' ∧ s'.finished 3 = true ∧ s'.g.dst = [1, 2, 3] :=
  ⟨_, _, FProg.exec_run rfl, by decide +kernel, by decide +kernel, FProg.exec_run rfl, by decide +kernel, by decide +kernel⟩

/-- Non-vacuity: an upload over two links that comes to its end; it was reported at the beginning already. -/
theorem C112_put_demo : ∃ s, FProg.Run true [1, 2, 3] (FProg.init true [1, 2, 3] 2) [.send 1, .recv 1 2, .send 0, .recv 0 1] s ∧ (∀ l ∈ s.g.links, l.unp.total = 0) ∧ s.finished 3 = true ∧
    s.g.dst = [1, 2, 3] ∧ (FProg.init true [1, 2, 3] 2).finished 3 = true :=
  ⟨_, FProg.exec_run rfl, by decide +kernel, by decide +kernel, by decide +kernel, by decide +kernel⟩

end StAsio
