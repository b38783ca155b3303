import Verif.Lemmas.FileTransfer

/-!
# Lemmas about the file transfer: the writer, and transfers over several links
-/

set_option autoImplicit false

namespace StAsio

/-! ## Writing -/

theorem FileUnp.room_eq (s : FileUnp) (h0 : 0 ≤ s.total) : s.room = min s.total.toNat maxTransfer := by
  by_cases hb : s.total > ((maxTransfer : Nat) : Int)
  · simp only [FileUnp.room, if_pos hb]; omega
  · simp only [FileUnp.room, if_neg hb]
    simp only [maxTransfer] at hb ⊢
    have : s.total % 2 ^ 64 = s.total := Int.emod_eq_of_lt h0 (by omega)
    rw [this]; omega

theorem unp_run (ks : List Nat) : ∀ (f : Bytes) (s : FileUnp) (stream : Bytes), 0 ≤ s.total →
    ∃ j : Nat, (j : Int) ≤ s.total ∧ j ≤ stream.length ∧
      FileUnp.run f s stream ks = (overwrite f s.pos (stream.take j), ⟨s.total - j, s.pos + j⟩, stream.drop j) ∧
      (s.total ≤ ks.length → s.total ≤ stream.length → (j : Int) = s.total) := by
  induction ks with
  | nil =>
    intro f s stream h0
    refine ⟨0, by omega, by omega, ?_, ?_⟩
    · simp [FileUnp.run, overwrite_nil]
    · intro h _; simp at h; omega
  | cons k ks ih =>
    intro f s stream h0
    simp only [FileUnp.run]
    by_cases hc : s.total = 0 ∨ stream = []
    · rw [if_pos hc]
      refine ⟨0, by omega, by omega, ?_, ?_⟩
      · simp [overwrite_nil]
      · intro _ h2
        rcases hc with hc | hc
        · omega
        · subst hc; simp at h2; omega
    · rw [if_neg hc]
      have hne : s.total ≠ 0 := fun h => hc (Or.inl h)
      have hs : 0 < stream.length := by cases stream with | nil => exact absurd (Or.inr rfl) hc | cons a l => simp
      have hr := s.room_eq h0
      have hn0 : 0 < min (max k 1) s.room := by rw [hr]; simp only [maxTransfer]; omega
      have hn1 : ((min (max k 1) s.room : Nat) : Int) ≤ s.total := by rw [hr]; omega
      generalize hn : min (max k 1) s.room = n at *
      have hl : (stream.take n).length = min n stream.length := by simp
      obtain ⟨j, h1, h2, h3, h4⟩ := ih (s.parse f (stream.take n)).1 (s.parse f (stream.take n)).2 (stream.drop n) (by simp only [FileUnp.parse, hl]; omega)
      simp only [FileUnp.parse, hl, List.length_drop] at h1 h2 h3 h4
      refine ⟨min n stream.length + j, by omega, by omega, ?_, ?_⟩
      · have e : stream.take (min n stream.length + j) = stream.take n ++ (stream.drop n).take j := by
          rw [List.take_add]
          have : stream.take (min n stream.length) = stream.take n := by
            apply List.ext_getElem?; intro i; simp only [List.getElem?_take]; grind
          rw [this]
          congr 1
          by_cases hq : n ≤ stream.length
          · rw [Nat.min_eq_left hq]
          · have d1 : stream.drop n = [] := by simp; omega
            have d2 : stream.drop (min n stream.length) = [] := by simp; omega
            rw [d1, d2]
        have e2 : (stream.drop n).drop j = stream.drop (min n stream.length + j) := by
          rw [List.drop_drop]
          by_cases hq : n ≤ stream.length
          · rw [Nat.min_eq_left hq]
          · rw [List.drop_eq_nil_of_le (by omega), List.drop_eq_nil_of_le (by omega)]
        simp only [FileUnp.parse, hl]
        rw [h3, e, ← overwrite_overwrite, hl, e2]
        congr 3
        · omega
        · omega
      · intro g1 g2
        simp only [List.length_cons] at g1
        have := h4 (by omega) (by omega)
        omega

/-! ## A transfer -/

/-- A link that has written the bytes from the start of its range to the position of its unpacker. -/
structure LinkOk (src dst : Bytes) (r : FileRange) (l : FLink) : Prop where
  from_ : r.1 ≤ l.unp.pos
  unp : l.unp.total = ((r.1 + r.2 : Nat) : Int) - l.unp.pos
  wire : l.wire = slice src l.unp.pos l.wire.length
  buf : BufOk src (l.unp.pos + l.wire.length) (r.1 + r.2) l.buf
  done : ∀ p, r.1 ≤ p → p < l.unp.pos → dst[p]? = src[p]?

structure FGetInv (src : Bytes) (rs : List FileRange) (s : FGet) : Prop where
  len : s.links.length = rs.length
  size : s.dst.length ≤ src.length
  links : ∀ (i : Nat) (r : FileRange) (l : FLink), rs[i]? = some r → s.links[i]? = some l → LinkOk src s.dst r l

theorem FGet.inv_init (src : Bytes) (n : Nat) : FGetInv src (fileRequests src.length n) (FGet.init src n) := by
  constructor
  · simp [FGet.init]
  · simp [FGet.init]
  · intro i r l h1 h2
    have hin := fileRequests_inside src.length n r (List.mem_of_getElem? h1)
    simp only [FGet.init, List.getElem?_map, h1, Option.map_some, Option.some.injEq] at h2
    subst h2
    constructor
    · simp
    · simp only []; omega
    · simp [slice_zero]
    · exact BufOk.new src r.1 r.2 hin.1
    · intro p a b; simp only [] at b; omega

theorem FGet.inv_step (src : Bytes) (n : Nat) (s s' : FGet) (a : FGetAct) (hn : 0 < n) (h : FGetInv src (fileRequests src.length n) s) (hs : s.step src a = some s') : FGetInv src (fileRequests src.length n) s' := by
  have hp := (fileRequests_partition src.length n hn).1
  rw [List.pairwise_iff_getElem] at hp
  generalize fileRequests src.length n = rs at *
  cases a with
  | send i =>
    simp only [FGet.step] at hs
    split at hs
    · rename_i l hl
      split at hs
      · cases hs
        refine ⟨by simp [h.len], h.size, ?_⟩
        intro j r l' hj hl'
        rw [List.getElem?_set] at hl'
        split at hl'
        · rename_i hij
          subst hij
          split at hl'
          · cases hl'
            have ok := h.links i r l hj hl
            have hb := ok.buf.read
            have hple := ok.buf.le
            have hpos := ok.buf.pos
            have hin := ok.buf.inside
            refine ⟨ok.from_, ok.unp, ?_, ?_, ok.done⟩
            · simp only [List.length_append]
              rw [← slice_append _ _ _ _ (by omega), ← ok.wire, ← ok.buf.data]
            · simp only [List.length_append]
              rw [← Nat.add_assoc]; exact hb
          · cases hl'
        · exact h.links j r l' hj hl'
      · cases hs
    · cases hs
  | recv i k =>
    simp only [FGet.step] at hs
    split at hs
    · rename_i l hl
      split at hs
      · rename_i hk
        cases hs
        obtain ⟨hk0, hk1, hk2, hk3⟩ := hk
        have hi : i < rs.length := by rw [← h.len]; exact (List.getElem?_eq_some_iff.mp hl).1
        have ok := h.links i rs[i] l (List.getElem?_eq_getElem hi) hl
        have hlk : (l.wire.take k).length = k := by simp; omega
        have hne : l.wire.take k ≠ [] := by intro e; rw [e] at hlk; simp at hlk; omega
        have hple := ok.buf.le
        have hpos := ok.buf.pos
        have hin := ok.buf.inside
        have hfrom := ok.from_
        have htk : l.wire.take k = slice src l.unp.pos k := by
          have := congrArg (List.take k) ok.wire
          rw [slice_take _ _ _ _ hk1] at this; exact this
        refine ⟨by simp [h.len], ?_, ?_⟩
        · simp only [FileUnp.parse]
          rw [overwrite_length _ _ _ hne, hlk]
          have := h.size
          omega
        · intro j r l' hj hl'
          rw [List.getElem?_set] at hl'
          split at hl'
          · rename_i hij
            subst hij
            split at hl'
            · have hr : rs[i] = r := by rw [List.getElem?_eq_getElem hi] at hj; simpa using hj
              cases hl'
              rw [hr] at ok hfrom hple hin
              refine ⟨?_, ?_, ?_, ?_, ?_⟩
              · simp only [FileUnp.parse, hlk]; omega
              · have := ok.unp
                simp only [FileUnp.parse, hlk]; omega
              · simp only [FileUnp.parse, hlk, List.length_drop]
                have := congrArg (List.drop k) ok.wire
                rw [slice_drop] at this; exact this
              · simp only [FileUnp.parse, hlk, List.length_drop]
                have e : l.unp.pos + k + (l.wire.length - k) = l.unp.pos + l.wire.length := by omega
                rw [e]; exact ok.buf
              · intro p hp1 hp2
                simp only [FileUnp.parse, hlk] at hp2 ⊢
                rw [overwrite_get _ _ _ hne, hlk]
                by_cases hpp : p < l.unp.pos
                · rw [if_pos hpp]
                  have hd := ok.done p hp1 hpp
                  have : p < s.dst.length := by
                    have : src[p]? ≠ none := by rw [List.getElem?_eq_getElem (by omega)]; simp
                    rw [← hd] at this
                    rcases Nat.lt_or_ge p s.dst.length with g | g
                    · exact g
                    · exact absurd (List.getElem?_eq_none g) this
                  rw [if_pos this]; exact hd
                · rw [if_neg hpp, if_pos hp2, htk, slice_get, if_pos (by omega)]
                  congr 1; omega
            · cases hl'
          · rename_i hij
            have ok' := h.links j r l' hj hl'
            refine ⟨ok'.from_, ok'.unp, ok'.wire, ok'.buf, ?_⟩
            intro p hp1 hp2
            simp only [FileUnp.parse]
            have hd := ok'.done p hp1 hp2
            have hple' := ok'.buf.le
            have hpos' := ok'.buf.pos
            have hin' := ok'.buf.inside
            have hlt : p < s.dst.length := by
              have : src[p]? ≠ none := by rw [List.getElem?_eq_getElem (by omega)]; simp
              rw [← hd] at this
              rcases Nat.lt_or_ge p s.dst.length with g | g
              · exact g
              · exact absurd (List.getElem?_eq_none g) this
            have hjl : j < rs.length := (List.getElem?_eq_some_iff.mp hj).1
            have hrj : rs[j] = r := (List.getElem?_eq_some_iff.mp hj).2
            -- p is in the range of link j, so it is not in that of link i
            have hdis : ¬ (l.unp.pos ≤ p ∧ p < l.unp.pos + k) := by
              intro ⟨g1, g2⟩
              have hasI : FileRange.has rs[i] p := ⟨by omega, by omega⟩
              have hasJ : FileRange.has rs[j] p := by rw [hrj]; exact ⟨hp1, by omega⟩
              rcases Nat.lt_or_gt_of_ne hij with g | g
              · exact hp i j hi hjl g p ⟨hasI, hasJ⟩
              · exact hp j i hjl hi g p ⟨hasJ, hasI⟩
            rw [overwrite_get _ _ _ hne, hlk]
            by_cases hpp : p < l.unp.pos
            · rw [if_pos hpp, if_pos hlt]; exact hd
            · rw [if_neg hpp, if_neg (by omega)]; exact hd
      · cases hs
    · cases hs

theorem FGet.inv_run (src : Bytes) (n : Nat) (hn : 0 < n) (as : List FGetAct) (s : FGet) (h : FGet.Run src (FGet.init src n) as s) : FGetInv src (fileRequests src.length n) s := by
  generalize h0 : FGet.init src n = s0 at h
  induction h with
  | nil => subst h0; exact FGet.inv_init src n
  | snoc s1 s2 as a _ hs ih => exact FGet.inv_step src n s1 s2 a hn ih hs

/-- The bytes that still have to be sent count twice, those under way once. -/
def FLink.work (l : FLink) : Nat := 2 * (l.buf.data.length + l.buf.total.toNat) + l.wire.length

def FGet.work (s : FGet) : Nat := (s.links.map FLink.work).sum

theorem sum_set (ls : List FLink) (i : Nat) (l l' : FLink) (h : ls[i]? = some l) : ((ls.set i l').map FLink.work).sum + l.work = (ls.map FLink.work).sum + l'.work := by
  induction ls generalizing i with
  | nil => simp at h
  | cons a ls ih =>
    cases i with
    | zero => simp only [List.getElem?_cons_zero, Option.some.injEq] at h; subst h; simp; omega
    | succ i => simp only [List.getElem?_cons_succ] at h; have := ih i h; simp only [List.set_cons_succ, List.map_cons, List.sum_cons]; omega

theorem FGet.work_step (src : Bytes) (rs : List FileRange) (s s' : FGet) (a : FGetAct) (h : FGetInv src rs s) (hs : s.step src a = some s') : s'.work < s.work := by
  cases a with
  | send i =>
    simp only [FGet.step] at hs
    split at hs
    · rename_i l hl
      split at hs
      · rename_i hg
        cases hs
        have hi : i < rs.length := by rw [← h.len]; exact (List.getElem?_eq_some_iff.mp hl).1
        have ok := h.links i rs[i] l (List.getElem?_eq_getElem hi) hl
        have hb := ok.buf.read
        have hlen : 0 < l.buf.data.length := by cases hb : l.buf.data with | nil => exact absurd hb hg.2 | cons a l => simp
        have := sum_set s.links i l { l with wire := l.wire ++ l.buf.data, buf := l.buf.read src } hl
        simp only [FGet.work]
        have w : ({ l with wire := l.wire ++ l.buf.data, buf := l.buf.read src } : FLink).work < l.work := by
          simp only [FLink.work, List.length_append]
          have t1 := hb.total; have t2 := ok.buf.total; have p1 := hb.pos; have p2 := ok.buf.pos; have l1 := hb.le; have l2 := ok.buf.le
          omega
        omega
      · cases hs
    · cases hs
  | recv i k =>
    simp only [FGet.step] at hs
    split at hs
    · rename_i l hl
      split at hs
      · rename_i hg
        cases hs
        have := sum_set s.links i l { l with wire := l.wire.drop k, unp := (l.unp.parse s.dst (l.wire.take k)).2 } hl
        simp only [FGet.work]
        have w : ({ l with wire := l.wire.drop k, unp := (l.unp.parse s.dst (l.wire.take k)).2 } : FLink).work < l.work := by
          simp only [FLink.work, List.length_drop]; omega
        omega
      · cases hs
    · cases hs

theorem FGet.bound (src : Bytes) (n : Nat) (hn : 0 < n) (as : List FGetAct) (s : FGet) (h : FGet.Run src (FGet.init src n) as s) : as.length + s.work ≤ (FGet.init src n).work := by
  generalize h0 : FGet.init src n = s0 at h
  induction h with
  | nil => simp
  | snoc s1 s2 as a hr hs ih =>
    have h1 := ih
    have h2 := FGet.work_step src _ s1 s2 a (FGet.inv_run src n hn as s1 (h0 ▸ hr)) hs
    simp only [List.length_append, List.length_singleton]
    omega

/-- An unfinished link can do something. -/
theorem FGet.progress (src : Bytes) (n : Nat) (s : FGet) (h : FGetInv src (fileRequests src.length n) s) (hu : ∃ l ∈ s.links, l.unp.total ≠ 0) : ∃ a s', s.step src a = some s' := by
  obtain ⟨l, hl, ht⟩ := hu
  obtain ⟨i, hi, rfl⟩ := List.mem_iff_getElem.mp hl
  have hl' : s.links[i]? = some s.links[i] := List.getElem?_eq_getElem hi
  have hr : i < (fileRequests src.length n).length := by rw [← h.len]; exact hi
  have ok := h.links i _ _ (List.getElem?_eq_getElem hr) hl'
  by_cases hw : s.links[i].wire = []
  · -- nothing under way: the sender has a chunk
    have hd : s.links[i].buf.data ≠ [] := by
      intro hd
      have e1 := ok.buf.last hd
      have e2 := ok.buf.pos
      have e3 := ok.unp
      rw [hd] at e2
      rw [hw] at e2
      simp only [List.length_nil] at e2
      omega
    refine ⟨.send i, { s with links := s.links.set i { s.links[i] with wire := s.links[i].wire ++ s.links[i].buf.data, buf := s.links[i].buf.read src } }, ?_⟩
    simp only [FGet.step, hl']
    rw [if_pos ⟨ok.buf.good, hd⟩]
  · have hwl : 0 < s.links[i].wire.length := by cases hb : s.links[i].wire with | nil => exact absurd hb hw | cons a l => simp
    have hle := ok.buf.le
    have hpos := ok.buf.pos
    have hun := ok.unp
    have hrm := s.links[i].unp.room_eq (by omega)
    have hs : ∃ s', s.step src (.recv i 1) = some s' := by
      simp only [FGet.step, hl']
      rw [if_pos ⟨by omega, by omega, by rw [hrm]; simp only [maxTransfer]; omega, ht⟩]
      exact ⟨_, rfl⟩
    exact ⟨.recv i 1, hs⟩

end StAsio
