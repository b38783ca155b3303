import Verif.Model.FileProgress
import Verif.Lemmas.FileTransfer3

/-!
# Lemmas about what file_client reports
-/

set_option autoImplicit false

namespace StAsio

theorem FProg.run_trans {put : Bool} {src : Bytes} {s s1 s2 : FProg} {as bs : List FProgAct} (h1 : FProg.Run put src s as s1) (h2 : FProg.Run put src s1 bs s2) : FProg.Run put src s (as ++ bs) s2 := by
  induction h2 with
  | nil => simpa using h1
  | snoc a b c d _ hs ih => rw [← List.append_assoc]; exact .snoc _ _ _ _ _ ih hs

theorem FProg.exec_run {put : Bool} {src : Bytes} {as : List FProgAct} : ∀ {s s' : FProg}, FProg.exec put src s as = some s' → FProg.Run put src s as s' := by
  induction as with
  | nil => intro s s' h; simp only [FProg.exec, Option.some.injEq] at h; subst h; exact .nil _
  | cons a as ih =>
    intro s s' h
    simp only [FProg.exec] at h
    cases hs : s.step put src a with
    | none => rw [hs] at h; cases h
    | some r =>
      rw [hs] at h
      have h1 : FProg.Run put src s ([] ++ [a]) r := .snoc _ _ _ _ _ (.nil _) hs
      exact FProg.run_trans (as := [a]) h1 (ih h)

/-! ## The parts add up to the file -/

theorem sum_filter_pos (rs : List FileRange) : ((rs.filter (fun r => decide (0 < r.2))).map (·.2)).sum = (rs.map (·.2)).sum := by
  induction rs with
  | nil => rfl
  | cons r rs ih =>
    simp only [List.filter_cons]
    by_cases h : 0 < r.2
    · simp only [h, decide_true, if_true, List.map_cons, List.sum_cons, ih]
    · simp only [h, decide_false, Bool.false_eq_true, if_false, List.map_cons, List.sum_cons, ih]; omega

theorem sum_parts (len n k : Nat) (hk : k < n) : (((List.range k).map (partOf len n)).map (·.2)).sum = len / n * k := by
  induction k with
  | zero => rfl
  | succ k ih =>
    have e := ih (by omega)
    rw [List.range_succ, List.map_append, List.map_append, List.sum_append, e]
    simp only [List.map_cons, List.map_nil, List.sum_cons, List.sum_nil, partOf]
    rw [if_neg (by omega), Nat.mul_succ]; omega

theorem fileRequests_sum (len n : Nat) (hn : 0 < n) : ((fileRequests len n).map (·.2)).sum = len := by
  rw [fileRequests_eq, sum_filter_pos]
  obtain ⟨k, rfl⟩ : ∃ k, n = k + 1 := ⟨n - 1, by omega⟩
  rw [List.range_succ, List.map_append, List.map_append, List.sum_append, sum_parts len (k + 1) k (by omega)]
  simp only [List.map_cons, List.map_nil, List.sum_cons, List.sum_nil, partOf, if_true]
  have h1 : len / (k + 1) * (k + 1) ≤ len := Nat.div_mul_le_self len (k + 1)
  have h2 : len / (k + 1) * k ≤ len / (k + 1) * (k + 1) := Nat.mul_le_mul_left _ (by omega)
  omega

/-- Replacing an element of a list changes a sum by the difference. -/
theorem FLink.sum_map_set (f : FLink → Nat) (ls : List FLink) (i : Nat) (l l' : FLink) (h : ls[i]? = some l) : ((ls.set i l').map f).sum + f l = (ls.map f).sum + f l' := by
  induction ls generalizing i with
  | nil => simp at h
  | cons a ls ih =>
    cases i with
    | zero => simp only [List.getElem?_cons_zero, Option.some.injEq] at h; subst h; simp; omega
    | succ i => simp only [List.getElem?_cons_succ] at h; have := ih i h; simp only [List.set_cons_succ, List.map_cons, List.sum_cons]; omega

/-- A member of a list after an element was replaced. -/
theorem mem_set_or (ls : List FLink) (i : Nat) (l' x : FLink) (h : x ∈ ls.set i l') : x ∈ ls ∨ x = l' := List.mem_or_eq_of_mem_set h

/-! ## The counter -/

/-- What a link still has to count. -/
def FLink.todo (put : Bool) (l : FLink) : Nat := if put then l.buf.total.toNat else l.unp.total.toNat

/-- A link never counts more than it was told to transfer. -/
def FLink.sane (src : Bytes) (l : FLink) : Prop := 0 ≤ l.unp.total ∧ 0 ≤ l.buf.total ∧ l.buf.pos + l.buf.total ≤ src.length

structure FProg.Count (put : Bool) (src : Bytes) (s : FProg) : Prop where
  sane : ∀ l ∈ s.g.links, l.sane src
  sum : s.moved + (s.g.links.map (FLink.todo put)).sum = src.length

/-- A read inside the file takes what it counts from what is left. -/
theorem FileBuf.read_count (src : Bytes) (b : FileBuf) (h0 : 0 ≤ b.total) (h1 : b.pos + b.total ≤ src.length) :
    (b.read src).data.length + (b.read src).total.toNat = b.total.toNat ∧ 0 ≤ (b.read src).total ∧ (b.read src).pos + (b.read src).total ≤ src.length := by
  simp only [FileBuf.read]
  by_cases hz : b.total ≤ 0
  · simp only [if_pos hz, List.length_nil]; omega
  · simp only [if_neg hz]
    generalize hn : (if b.total > (maxTransfer : Int) then maxTransfer else b.total.toNat) = n
    have hle : (n : Int) ≤ b.total := by
      subst hn; split <;> omega
    have hl : (slice src b.pos n).length = n := by
      simp only [slice, List.length_take, List.length_drop]; omega
    rw [if_neg (by omega)]
    simp only [hl]; omega

theorem FProg.count_init (put : Bool) (src : Bytes) (n : Nat) (hn : 0 < n) : (FProg.init put src n).Count put src := by
  have hs := fileRequests_sum src.length n hn
  have hi := fileRequests_inside src.length n
  simp only [FProg.init, FGet.init]
  generalize fileRequests src.length n = rs at *
  constructor
  · intro l hl
    obtain ⟨r, hr, rfl⟩ := List.mem_map.mp hl
    have hin := hi r hr
    have := FileBuf.read_count src ⟨r.2, r.1, [], true⟩ (by simp) (by simp only []; omega)
    exact ⟨by simp, this.2.1, this.2.2⟩
  · simp only [List.map_map]
    cases put with
    | false =>
      have e : (FLink.todo false ∘ fun (r : FileRange) => (⟨FileBuf.new src r.1 r.2, [], ⟨r.2, r.1⟩⟩ : FLink)) = (·.2) := by
        funext r; simp [FLink.todo]
      rw [e]; simp [hs]
    | true =>
      simp only [if_true]
      suffices ∀ rs : List FileRange, (∀ r ∈ rs, r.1 + r.2 ≤ src.length) →
          (rs.map ((fun l : FLink => l.buf.data.length) ∘ fun (r : FileRange) => (⟨FileBuf.new src r.1 r.2, [], ⟨r.2, r.1⟩⟩ : FLink))).sum +
          (rs.map (FLink.todo true ∘ fun (r : FileRange) => (⟨FileBuf.new src r.1 r.2, [], ⟨r.2, r.1⟩⟩ : FLink))).sum = (rs.map (·.2)).sum by
        rw [this rs (fun r hr => (hi r hr).1), hs]
      intro rs
      induction rs with
      | nil => intro _; rfl
      | cons r rs ih =>
        intro hin
        have h1 := ih (fun r hr => hin r (List.mem_cons_of_mem _ hr))
        have h2 := hin r (by simp)
        have h3 := (FileBuf.read_count src ⟨r.2, r.1, [], true⟩ (by simp) (by simp only []; omega)).1
        simp only [List.map_cons, List.sum_cons, Function.comp, FLink.todo, if_true, FileBuf.new] at h1 h3 ⊢
        omega

theorem FProg.count_step (put : Bool) (src : Bytes) (s s' : FProg) (a : FProgAct) (h : s.Count put src) (hs : s.step put src a = some s') : s'.Count put src ∧ s.moved ≤ s'.moved := by
  cases a with
  | send i =>
    simp only [FProg.step] at hs
    split at hs
    · cases hs
    · split at hs
      · rename_i g hg
        cases hs
        simp only [FGet.step] at hg
        split at hg
        · rename_i l hl
          split at hg
          · cases hg
            have sa := h.sane l (List.mem_of_getElem? hl)
            obtain ⟨c1, c2, c3⟩ := FileBuf.read_count src l.buf sa.2.1 sa.2.2
            have hi := (List.getElem?_eq_some_iff.mp hl).1
            have e : (({ s.g with links := s.g.links.set i { l with wire := l.wire ++ l.buf.data, buf := l.buf.read src } } : FGet).chunk i) = (l.buf.read src).data.length := by
              simp [FGet.chunk, hi]
            have hsum := FLink.sum_map_set (FLink.todo put) s.g.links i l { l with wire := l.wire ++ l.buf.data, buf := l.buf.read src } hl
            have hc := h.sum
            refine ⟨⟨?_, ?_⟩, ?_⟩
            · intro x hx
              rcases mem_set_or _ _ _ _ hx with hx | rfl
              · exact h.sane x hx
              · exact ⟨sa.1, c2, c3⟩
            · cases put <;> simp only [e, FLink.todo, if_true, Bool.false_eq_true, if_false] at hsum hc ⊢ <;> omega
            · cases put <;> simp
          · cases hg
        · cases hg
      · cases hs
  | recv i k =>
    simp only [FProg.step] at hs
    split at hs
    · cases hs
    · split at hs
      · rename_i g hg
        cases hs
        simp only [FGet.step] at hg
        split at hg
        · rename_i l hl
          split at hg
          · rename_i hk
            cases hg
            have sa := h.sane l (List.mem_of_getElem? hl)
            have hr := l.unp.room_eq sa.1
            have hlk : (l.wire.take k).length = k := by simp; omega
            have hsum := FLink.sum_map_set (FLink.todo put) s.g.links i l { l with wire := l.wire.drop k, unp := (l.unp.parse s.g.dst (l.wire.take k)).2 } hl
            have hc := h.sum
            refine ⟨⟨?_, ?_⟩, ?_⟩
            · intro x hx
              rcases mem_set_or _ _ _ _ hx with hx | rfl
              · exact h.sane x hx
              · refine ⟨?_, sa.2⟩
                simp only [FileUnp.parse, hlk]; omega
            · have := sa.1
              cases put <;> simp only [FLink.todo, FileUnp.parse, hlk, if_true, Bool.false_eq_true, if_false] at hsum hc ⊢ <;> omega
            · cases put <;> simp
          · cases hg
        · cases hg
      · cases hs
  | badWrite i k =>
    simp only [FProg.step] at hs
    split at hs
    · cases hs
    · split at hs
      · rename_i l g hl hg
        cases hs
        simp only [FGet.step, hl] at hg
        split at hg
        · rename_i hk
          have sa := h.sane l (List.mem_of_getElem? hl)
          have hr := l.unp.room_eq sa.1
          have hsum := FLink.sum_map_set (FLink.todo put) s.g.links i l { l with wire := l.wire.drop k, unp := ⟨l.unp.total - k, l.unp.pos + k⟩ } hl
          have hc := h.sum
          refine ⟨⟨?_, ?_⟩, ?_⟩
          · intro x hx
            rcases mem_set_or _ _ _ _ hx with hx | rfl
            · exact h.sane x hx
            · refine ⟨?_, sa.2⟩
              simp only []; omega
          · have := sa.1
            cases put <;> simp only [FLink.todo, if_true, Bool.false_eq_true, if_false] at hsum hc ⊢ <;> omega
          · cases put <;> simp
        · cases hg
      · cases hs
  | lose i =>
    simp only [FProg.step] at hs
    split at hs
    · cases hs
    · cases hs
      exact ⟨⟨h.sane, h.sum⟩, Nat.le_refl _⟩
  | cut i =>
    simp only [FProg.step] at hs
    split at hs
    · cases hs
    · cases hs
      exact ⟨⟨h.sane, h.sum⟩, Nat.le_refl _⟩

theorem FProg.count_run (put : Bool) (src : Bytes) (n : Nat) (hn : 0 < n) (as : List FProgAct) (s : FProg) (h : FProg.Run put src (FProg.init put src n) as s) : s.Count put src := by
  generalize h0 : FProg.init put src n = s0 at h
  induction h with
  | nil => subst h0; exact FProg.count_init put src n hn
  | snoc s1 s2 as a _ hs ih => exact (FProg.count_step put src s1 s2 a ih hs).1

/-! ## The bytes, as long as writing does not fail -/

theorem FProg.inv_run (put : Bool) (src : Bytes) (n : Nat) (hn : 0 < n) (as : List FProgAct) (s : FProg) (h : FProg.Run put src (FProg.init put src n) as s)
    (hw : ∀ i k, FProgAct.badWrite i k ∉ as) : FGetInv src (fileRequests src.length n) s.g := by
  generalize h0 : FProg.init put src n = s0 at h
  induction h with
  | nil => subst h0; exact FGet.inv_init src n
  | snoc s1 s2 as a _ hs ih =>
    have ih := ih (fun i k hm => hw i k (List.mem_append_left _ hm))
    cases a with
    | send i =>
      simp only [FProg.step] at hs
      split at hs
      · cases hs
      · split at hs
        · rename_i g hg
          cases hs
          exact FGet.inv_step src n s1.g g _ hn ih hg
        · cases hs
    | recv i k =>
      simp only [FProg.step] at hs
      split at hs
      · cases hs
      · split at hs
        · rename_i g hg
          cases hs
          exact FGet.inv_step src n s1.g g _ hn ih hg
        · cases hs
    | badWrite i k => exact absurd (List.mem_append_right _ (List.mem_singleton.mpr rfl)) (hw i k)
    | lose i =>
      simp only [FProg.step] at hs
      split at hs
      · cases hs
      · cases hs; exact ih
    | cut i =>
      simp only [FProg.step] at hs
      split at hs
      · cases hs
      · cases hs; exact ih

/-- When all receivers have got their parts the destination is the source. -/
theorem FGet.inv_done (src : Bytes) (n : Nat) (hn : 0 < n) (s : FGet) (inv : FGetInv src (fileRequests src.length n) s) (hf : ∀ l ∈ s.links, l.unp.total = 0) : s.dst = src := by
  have hp := (fileRequests_partition src.length n hn).2
  have key : ∀ p, p < src.length → s.dst[p]? = src[p]? := by
    intro p hlt
    obtain ⟨r, hr, h1, h2⟩ := (hp p).mp hlt
    obtain ⟨i, hi, rfl⟩ := List.mem_iff_getElem.mp hr
    have hl : i < s.links.length := by rw [inv.len]; exact hi
    have ok := inv.links i _ _ (List.getElem?_eq_getElem hi) (List.getElem?_eq_getElem hl)
    have ht := hf _ (List.getElem_mem hl)
    have hu := ok.unp
    exact ok.done p h1 (by omega)
  apply List.ext_getElem?
  intro p
  rcases Nat.lt_or_ge p src.length with g | g
  · exact key p g
  · rw [List.getElem?_eq_none g, List.getElem?_eq_none (Nat.le_trans inv.size g)]

/-- A sum is 0 if and only if all terms are. -/
theorem sum_map_zero (f : FLink → Nat) (ls : List FLink) : (ls.map f).sum = 0 ↔ ∀ l ∈ ls, f l = 0 := by
  induction ls with
  | nil => simp
  | cons a ls ih =>
    simp only [List.map_cons, List.sum_cons, List.mem_cons, forall_eq_or_imp, ← ih]; omega

/-- No link gets lost and nothing fails: all ends stay alive. -/
theorem FProg.alive_run (put : Bool) (src : Bytes) (n : Nat) (as : List FProgAct) (s : FProg) (h : FProg.Run put src (FProg.init put src n) as s)
    (hw : ∀ i k, FProgAct.badWrite i k ∉ as) (hl : ∀ i, FProgAct.lose i ∉ as ∧ FProgAct.cut i ∉ as) : s.dead = [] ∧ s.gone = [] := by
  generalize h0 : FProg.init put src n = s0 at h
  induction h with
  | nil => subst h0; exact ⟨rfl, rfl⟩
  | snoc s1 s2 as a _ hs ih =>
    have ih := ih (fun i k hm => hw i k (List.mem_append_left _ hm)) (fun i => ⟨fun hm => (hl i).1 (List.mem_append_left _ hm), fun hm => (hl i).2 (List.mem_append_left _ hm)⟩)
    cases a with
    | send i =>
      simp only [FProg.step] at hs
      split at hs
      · cases hs
      · split at hs <;> cases hs
        exact ih
    | recv i k =>
      simp only [FProg.step] at hs
      split at hs
      · cases hs
      · split at hs <;> cases hs
        exact ih
    | badWrite i k => exact absurd (List.mem_append_right _ (List.mem_singleton.mpr rfl)) (hw i k)
    | lose i => exact absurd (List.mem_append_right _ (List.mem_singleton.mpr rfl)) (hl i).1
    | cut i => exact absurd (List.mem_append_right _ (List.mem_singleton.mpr rfl)) (hl i).2

/-! ## How many bytes are right -/

/-- The positions the links have written. -/
def written (rs : List FileRange) (ls : List FLink) : List Nat := (rs.zip ls).flatMap (fun x => List.range' x.1.1 (x.2.unp.pos - x.1.1))

theorem written_length (rs : List FileRange) : ∀ ls : List FLink, ls.length = rs.length →
    (∀ (i : Nat) (r : FileRange) (l : FLink), rs[i]? = some r → ls[i]? = some l → r.1 ≤ l.unp.pos ∧ l.unp.pos + l.unp.total.toNat = r.1 + r.2) →
    (written rs ls).length + (ls.map (FLink.todo false)).sum = (rs.map (·.2)).sum := by
  induction rs with
  | nil => intro ls hl _; simp at hl; subst hl; rfl
  | cons r rs ih =>
    intro ls hl h
    cases ls with
    | nil => simp at hl
    | cons l ls =>
      have h1 := ih ls (by simpa using hl) (fun i => h (i + 1))
      have h2 := h 0 r l rfl rfl
      simp only [written, List.zip_cons_cons, List.flatMap_cons, List.length_append, List.length_range', List.map_cons, List.sum_cons, FLink.todo, Bool.false_eq_true, if_false] at h1 ⊢
      omega

/-- What the links have written is right, and it is all but what they still expect. -/
theorem FProg.right_written (put : Bool) (src : Bytes) (n : Nat) (hn : 0 < n) (s : FProg) (inv : FGetInv src (fileRequests src.length n) s.g) (hc : s.Count put src) :
    src.length ≤ ((List.range src.length).filter (fun p => decide (s.g.dst[p]? = src[p]?))).length + (s.g.links.map (FLink.todo false)).sum := by
  have hlen := written_length (fileRequests src.length n) s.g.links inv.len (by
    intro i r l hr hl
    have ok := inv.links i r l hr hl
    have sa := (hc.sane l (List.mem_of_getElem? hl)).1
    have hu := ok.unp
    exact ⟨ok.from_, by omega⟩)
  rw [fileRequests_sum src.length n hn] at hlen
  have hp := (fileRequests_partition src.length n hn).1
  have hin := fileRequests_inside src.length n
  rw [List.pairwise_iff_getElem] at hp
  have hle : (written (fileRequests src.length n) s.g.links).length ≤ ((List.range src.length).filter (fun p => decide (s.g.dst[p]? = src[p]?))).length := by
    apply List.Nodup.length_le_of_subset
    · unfold List.Nodup written
      rw [List.pairwise_flatMap]
      refine ⟨fun x _ => List.nodup_range', ?_⟩
      rw [List.pairwise_iff_getElem]
      intro i j hi hj hij p hpi q hqj e
      subst e
      simp only [List.length_zip] at hi hj
      have hi1 : i < (fileRequests src.length n).length := by omega
      have hj1 : j < (fileRequests src.length n).length := by omega
      have hi2 : i < s.g.links.length := by omega
      have hj2 : j < s.g.links.length := by omega
      have oki := inv.links i _ _ (List.getElem?_eq_getElem hi1) (List.getElem?_eq_getElem hi2)
      have okj := inv.links j _ _ (List.getElem?_eq_getElem hj1) (List.getElem?_eq_getElem hj2)
      have sai := (hc.sane _ (List.getElem_mem hi2)).1
      have saj := (hc.sane _ (List.getElem_mem hj2)).1
      have ui := oki.unp
      have uj := okj.unp
      simp only [List.getElem_zip, List.mem_range'_1] at hpi hqj
      exact hp i j hi1 hj1 hij p ⟨⟨hpi.1, by omega⟩, ⟨hqj.1, by omega⟩⟩
    · intro p hpm
      obtain ⟨x, hx, hpx⟩ := List.mem_flatMap.mp hpm
      obtain ⟨i, hi, rfl⟩ := List.mem_iff_getElem.mp hx
      simp only [List.length_zip] at hi
      have hi1 : i < (fileRequests src.length n).length := by omega
      have hi2 : i < s.g.links.length := by omega
      have ok := inv.links i _ _ (List.getElem?_eq_getElem hi1) (List.getElem?_eq_getElem hi2)
      have sa := (hc.sane _ (List.getElem_mem hi2)).1
      have u := ok.unp
      have hr := hin _ (List.getElem_mem hi1)
      simp only [List.getElem_zip, List.mem_range'_1] at hpx
      rw [List.mem_filter]
      exact ⟨List.mem_range.mpr (by omega), decide_eq_true (ok.done p hpx.1 (by omega))⟩
  omega

/-- What a link still expects is under way, in its buffer or not read yet. -/
theorem FProg.under_way (put : Bool) (src : Bytes) (n : Nat) (s : FProg) (inv : FGetInv src (fileRequests src.length n) s.g) (hc : s.Count put src) :
    (s.g.links.map (FLink.todo false)).sum = (s.g.links.map (fun l => l.wire.length)).sum + (s.g.links.map (fun l => l.buf.data.length)).sum + (s.g.links.map (FLink.todo true)).sum ∧
    ∀ l ∈ s.g.links, l.buf.data.length ≤ maxTransfer := by
  have key : ∀ l ∈ s.g.links, l.todo false = l.wire.length + l.buf.data.length + l.todo true ∧ l.buf.data.length ≤ maxTransfer := by
    intro l hl
    have sa := hc.sane l hl
    obtain ⟨i, hi, rfl⟩ := List.mem_iff_getElem.mp hl
    have hr : i < (fileRequests src.length n).length := by rw [← inv.len]; exact hi
    have ok := inv.links i _ _ (List.getElem?_eq_getElem hr) (List.getElem?_eq_getElem hi)
    have u := ok.unp; have b1 := ok.buf.total; have b2 := ok.buf.pos; have b3 := ok.buf.le; have b4 := ok.buf.small
    simp only [FLink.todo, if_true, Bool.false_eq_true, if_false]; omega
  refine ⟨?_, fun l hl => (key l hl).2⟩
  have key := fun l hl => (key l hl).1
  generalize s.g.links = ls at key
  induction ls with
  | nil => rfl
  | cons l ls ih =>
    have h1 := key l (by simp)
    have h2 := ih (fun l hl => key l (List.mem_cons_of_mem _ hl))
    simp only [List.map_cons, List.sum_cons]; omega

end StAsio
