import Verif.Model.PrefixSuffix
import Verif.Spec.PrefixSuffix
import Verif.Lemmas.Unpacker
set_option autoImplicit false
namespace StAsio

/-! ### Searching -/

/-- First occurrence of `sub` in `s`. -/
def findSub (sub : Bytes) : Bytes → Option Nat
  | [] => if sub = [] then some 0 else none
  | x :: s => if sub <+: (x :: s) then some 0 else (findSub sub s).map (· + 1)

theorem findSub_some {sub : Bytes} : ∀ {s : Bytes} {i : Nat}, findSub sub s = some i →
    sub <+: s.drop i ∧ i + sub.length ≤ s.length ∧ ∀ j, j < i → ¬ sub <+: s.drop j := by
  intro s
  induction s with
  | nil =>
    intro i h
    simp only [findSub] at h
    split at h
    · next h0 => simp at h; subst h h0; simp
    · simp at h
  | cons x s ih =>
    intro i h
    simp only [findSub] at h
    split at h
    · next h0 =>
      simp only [Option.some.injEq] at h; subst h
      exact ⟨h0, by simpa using h0.length_le, by intro j hj; omega⟩
    · next h0 =>
      rw [Option.map_eq_some_iff] at h
      obtain ⟨k, hk, rfl⟩ := h
      obtain ⟨h1, h2, h3⟩ := ih hk
      refine ⟨by simpa using h1, by simp; omega, ?_⟩
      intro j hj
      cases j with
      | zero => simpa using h0
      | succ j => simpa using h3 j (by omega)

theorem findSub_none {sub : Bytes} (hs : sub ≠ []) : ∀ {s : Bytes}, findSub sub s = none → ∀ j, ¬ sub <+: s.drop j := by
  intro s
  induction s with
  | nil => intro _ j h; simp at h; exact hs h
  | cons x s ih =>
    intro h j
    simp only [findSub] at h
    split at h
    · simp at h
    · next h0 =>
      cases j with
      | zero => simpa using h0
      | succ j => simpa using ih (by simpa using h) j

theorem findSub_eq_some {sub : Bytes} (hs : sub ≠ []) {s : Bytes} {i : Nat} (h1 : sub <+: s.drop i)
    (h2 : ∀ j, j < i → ¬ sub <+: s.drop j) : findSub sub s = some i := by
  cases h : findSub sub s with
  | none => exact absurd h1 (findSub_none hs h i)
  | some k =>
    obtain ⟨a1, a2, a3⟩ := findSub_some h
    rcases Nat.lt_trichotomy k i with hk | hk | hk
    · exact absurd a1 (h2 k hk)
    · rw [hk]
    · exact absurd h1 (a3 i hk)

theorem findSub_eq_none {sub : Bytes} {s : Bytes} (h : ∀ j, ¬ sub <+: s.drop j) : findSub sub s = none := by
  cases hf : findSub sub s with
  | none => rfl
  | some k => exact absurd (findSub_some hf).1 (h k)

theorem prefix_iff_take {a b : Bytes} : a <+: b ↔ b.take a.length = a := by
  constructor
  · intro h; exact (List.prefix_iff_eq_take.mp h).symm
  · intro h; rw [← h]; exact List.take_prefix _ _

theorem memmemGo_spec (mem sub : Bytes) (hs : sub ≠ []) : ∀ (n i : Nat), i + n + sub.length = mem.length + 1 →
    memmemGo mem sub n i = some ((findSub sub (mem.drop i)).map (· + i)) := by
  have hsl : 0 < sub.length := List.length_pos_iff.mpr hs
  intro n
  induction n with
  | zero =>
    intro i h
    have : findSub sub (mem.drop i) = none := by
      apply findSub_eq_none
      intro j hj
      have := hj.length_le
      simp only [List.length_drop] at this
      omega
    simp [memmemGo, this]
  | succ n ih =>
    intro i h
    have hr : readAt mem i sub.length = some ((mem.drop i).take sub.length) := readAt_some (by omega)
    have hlt : i < mem.length := by omega
    rw [List.drop_eq_getElem_cons hlt]
    simp only [memmemGo, hr, Option.bind_eq_bind, Option.bind_some, findSub]
    by_cases hp : sub <+: mem.drop i
    · have h1 := prefix_iff_take.mp hp
      rw [if_pos h1, if_pos (by rw [← List.drop_eq_getElem_cons hlt]; exact hp)]
      simp
    · have h1 : ¬ ((mem.drop i).take sub.length = sub) := fun h => hp (prefix_iff_take.mpr h)
      rw [if_neg h1, if_neg (by rw [← List.drop_eq_getElem_cons hlt]; exact hp), ih (i + 1) (by omega)]
      cases findSub sub (mem.drop (i + 1)) with
      | none => rfl
      | some k => simp; omega

theorem memmem_spec (mem sub : Bytes) (hs : sub ≠ []) : memmem mem sub = some (findSub sub mem) := by
  unfold memmem
  split
  · next h =>
    rw [memmemGo_spec mem sub hs _ 0 (by omega)]
    simp
  · next h =>
    congr 1
    symm
    apply findSub_eq_none
    intro j hj
    have := hj.length_le
    simp only [List.length_drop] at this
    omega

/-! ### The ideal decoder -/

inductive PsVerdict where
  | wait
  | bad
  | frame (n : Nat)

def psVerdict (c : Cfg) (p : PsCfg) (s : Bytes) : PsVerdict :=
  if p.pre.length ≤ s.length ∧ ¬ p.pre <+: s then .bad
  else if p.pre.length + p.suf.length < s.length then
    match findSub p.suf (s.drop p.pre.length) with
    | some i => if p.pre.length + i + p.suf.length ≤ c.bufSize then .frame (p.pre.length + i + p.suf.length) else .bad
    | none => if c.bufSize ≤ s.length then .bad else .wait
  else .wait

def psFrames (c : Cfg) (p : PsCfg) (s : Bytes) : List Bytes × Tail :=
  match psVerdict c p s with
  | .wait => ([], .incomplete s)
  | .bad => ([], .bad s)
  | .frame n =>
    if n = 0 ∨ s.length < n then ([], .incomplete s)
    else
      let r := psFrames c p (s.drop n)
      (s.take n :: r.1, r.2)
termination_by s.length
decreasing_by simp only [List.length_drop]; omega

theorem psVerdict_frame {c : Cfg} {p : PsCfg} (hp : p.Valid c) {s : Bytes} {n : Nat} (h : psVerdict c p s = .frame n) :
    p.pre.length + p.suf.length ≤ n ∧ n ≤ s.length ∧ n ≤ c.bufSize ∧ 0 < n ∧ p.pre <+: s ∧
      (∃ i, n = p.pre.length + i + p.suf.length ∧ findSub p.suf (s.drop p.pre.length) = some i) ∧
      p.pre.length + p.suf.length < s.length := by
  have hsl : 0 < p.suf.length := List.length_pos_iff.mpr hp.1
  unfold psVerdict at h
  split at h
  · cases h
  · next h0 =>
    split at h
    · next h1 =>
      split at h
      · next i hi =>
        split at h
        · next h2 =>
          simp only [PsVerdict.frame.injEq] at h
          have := (findSub_some hi).2.1
          simp only [List.length_drop] at this
          refine ⟨by omega, by omega, by omega, by omega, ?_, ⟨i, h.symm, hi⟩, h1⟩
          exact Classical.byContradiction (fun hc => h0 ⟨by omega, hc⟩)
        · cases h
      · split at h <;> cases h
    · cases h

theorem psVerdict_frame_append {c : Cfg} {p : PsCfg} (hp : p.Valid c) {s : Bytes} {n : Nat} (h : psVerdict c p s = .frame n) (b : Bytes) :
    psVerdict c p (s ++ b) = .frame n := by
  obtain ⟨h1, h2, h3, h4, h5, ⟨i, h6, h7⟩, h8⟩ := psVerdict_frame hp h
  have hf : findSub p.suf ((s ++ b).drop p.pre.length) = some i := by
    obtain ⟨a1, a2, a3⟩ := findSub_some h7
    simp only [List.length_drop] at a2
    rw [List.drop_append_of_le_length (by omega)]
    apply findSub_eq_some hp.1
    · rw [List.drop_append_of_le_length (by simp; omega)]; exact a1.trans (List.prefix_append _ _)
    · intro j hj hc
      apply a3 j hj
      rw [List.drop_append_of_le_length (by simp; omega)] at hc
      rw [prefix_iff_take] at hc ⊢
      rw [List.take_append_of_le_length (by simp; omega)] at hc
      exact hc
  unfold psVerdict
  rw [if_neg (by rintro ⟨_, hc⟩; exact hc (h5.trans (List.prefix_append _ _))), if_pos (by simp; omega), hf]
  simp only
  rw [if_pos (by omega), h6]

theorem psVerdict_bad_append {c : Cfg} {p : PsCfg} (hp : p.Valid c) {s : Bytes} (h : psVerdict c p s = .bad) (b : Bytes) :
    psVerdict c p (s ++ b) = .bad := by
  unfold psVerdict at h
  split at h
  · next h0 =>
    unfold psVerdict
    rw [if_pos]
    refine ⟨by simp; omega, fun hc => h0.2 ?_⟩
    rw [prefix_iff_take] at hc ⊢
    rw [List.take_append_of_le_length h0.1] at hc
    exact hc
  · next h0 =>
    split at h
    · next h1 =>
      have hpre : p.pre <+: s := Classical.byContradiction (fun hc => h0 ⟨by omega, hc⟩)
      have hpre' : p.pre <+: s ++ b := hpre.trans (List.prefix_append _ _)
      have key : ∀ i, findSub p.suf ((s ++ b).drop p.pre.length) = some i → i + p.suf.length + p.pre.length ≤ s.length →
          findSub p.suf (s.drop p.pre.length) = some i := by
        intro i hi hle
        obtain ⟨a1, a2, a3⟩ := findSub_some hi
        rw [List.drop_append_of_le_length (by omega)] at a1 a3
        apply findSub_eq_some hp.1
        · rw [List.drop_append_of_le_length (by simp; omega)] at a1
          rw [prefix_iff_take] at a1 ⊢
          rw [List.take_append_of_le_length (by simp; omega)] at a1
          exact a1
        · intro j hj hc
          apply a3 j hj
          rw [List.drop_append_of_le_length (by simp; omega)]
          exact hc.trans (List.prefix_append _ _)
      have hlen : c.bufSize ≤ s.length ∧ ∀ i, findSub p.suf (s.drop p.pre.length) = some i → c.bufSize < p.pre.length + i + p.suf.length := by
        split at h
        · next i hi =>
          split at h
          · cases h
          · next h2 =>
            have := (findSub_some hi).2.1
            simp only [List.length_drop] at this
            refine ⟨by omega, ?_⟩
            intro j hj
            rw [hi] at hj
            cases hj
            omega
        · next hn =>
          split at h
          · next h2 => exact ⟨h2, by intro i hi; rw [hn] at hi; cases hi⟩
          · cases h
      unfold psVerdict
      rw [if_neg (by rintro ⟨_, hc⟩; exact hc hpre'), if_pos (by simp; omega)]
      split
      · next i hi =>
        rw [if_neg]
        intro hle
        have := hlen.2 i (key i hi (by omega))
        omega
      · rw [if_pos (by simp; omega)]
    · cases h

theorem psFrames_frame {c : Cfg} {p : PsCfg} (hp : p.Valid c) {s : Bytes} {n : Nat} (h : psVerdict c p s = .frame n) :
    psFrames c p s = (s.take n :: (psFrames c p (s.drop n)).1, (psFrames c p (s.drop n)).2) := by
  obtain ⟨_, h2, _, h4, _⟩ := psVerdict_frame hp h
  rw [psFrames, h]
  simp only
  rw [if_neg (by omega)]

theorem psFrames_wait {c : Cfg} {p : PsCfg} {s : Bytes} (h : psVerdict c p s = .wait) : psFrames c p s = ([], .incomplete s) := by
  rw [psFrames, h]

theorem psFrames_bad {c : Cfg} {p : PsCfg} {s : Bytes} (h : psVerdict c p s = .bad) : psFrames c p s = ([], .bad s) := by
  rw [psFrames, h]

theorem psFrames_append {c : Cfg} {p : PsCfg} (hp : p.Valid c) (s b : Bytes) :
    match psFrames c p s with
    | (fs, .incomplete q) => psFrames c p (s ++ b) = (fs ++ (psFrames c p (q ++ b)).1, (psFrames c p (q ++ b)).2)
    | (fs, .bad q) => psFrames c p (s ++ b) = (fs, .bad (q ++ b)) := by
  fun_induction psFrames c p s with
  | case1 s h => simp
  | case2 s h => simp only; rw [psFrames_bad (psVerdict_bad_append hp h b)]
  | case3 s n h h0 =>
    obtain ⟨_, h2, _, h4, _⟩ := psVerdict_frame hp h
    omega
  | case4 s n h h0 r ih =>
    obtain ⟨_, h2, _, h4, _⟩ := psVerdict_frame hp h
    rw [psFrames_frame hp (psVerdict_frame_append hp h b), List.take_append_of_le_length h2, List.drop_append_of_le_length h2]
    simp only [r]
    generalize psFrames c p (s.drop n) = F at ih
    obtain ⟨fs, q | q⟩ := F
    · simp only at ih ⊢; rw [ih]; rfl
    · simp only at ih ⊢; rw [ih]

theorem psFrames_incomplete {c : Cfg} {p : PsCfg} (hp : p.Valid c) (s : Bytes) : ∀ fs q, psFrames c p s = (fs, .incomplete q) →
    psVerdict c p q = .wait ∧ q.length ≤ s.length ∧ (fs = [] → q = s) ∧ ∃ l, s = l ++ q := by
  fun_induction psFrames c p s with
  | case1 s h => intro fs q hq; simp at hq; obtain ⟨rfl, rfl⟩ := hq; exact ⟨h, by omega, fun _ => rfl, [], rfl⟩
  | case2 s h => intro fs q hq; simp at hq
  | case3 s n h h0 =>
    obtain ⟨_, h2, _, h4, _⟩ := psVerdict_frame hp h
    omega
  | case4 s n h h0 r ih =>
    intro fs q hq
    simp only [Prod.mk.injEq] at hq
    obtain ⟨a, b, _, l, hl⟩ := ih r.1 q (Prod.ext rfl hq.2)
    refine ⟨a, by simp at b; omega, by intro h; rw [h] at hq; simp at hq, s.take n ++ l, ?_⟩
    rw [List.append_assoc, ← hl, List.take_append_drop]

/-! ### Receiving -/

def psVisible (p : PsCfg) (stripped : Bool) (fs : List Bytes) : List Bytes :=
  (fs.filter (fun f => decide (p.pre.length + p.suf.length < f.length))).map
    (fun f => if stripped then (f.drop p.pre.length).take (f.length - (p.pre.length + p.suf.length)) else f)

def psCur (p : PsCfg) (s : Bytes) : Option Nat := if p.pre <+: s then some 0 else none

/-- `cur_msg_len` is consistent with the pending data `s`. -/
def PsCurOk (c : Cfg) (p : PsCfg) (s : Bytes) (cur : Option Nat) : Prop :=
  cur = none ∨ (cur = some 0 ∧ p.pre <+: s) ∨ ∃ n, cur = some (n + 1) ∧ psVerdict c p s = .frame (n + 1)

theorem ps_search {c : Cfg} {p : PsCfg} (hp : p.Valid c) {raw : Bytes} {pos len : Nat} (h1 : pos + len ≤ raw.length) (h2 : len ≤ c.bufSize)
    (hpre : p.pre.length ≤ len → p.pre <+: (raw.drop pos).take len) (cur : Option Nat) :
    Ps.search c p raw pos len cur = some (match psVerdict c p ((raw.drop pos).take len) with
      | .frame n => (some n, 0)
      | .wait => (cur, c.bufSize)
      | .bad => (cur, 0)) := by
  have hsl : 0 < p.suf.length := List.length_pos_iff.mpr hp.1
  have hb := hp.2
  have hlen : ((raw.drop pos).take len).length = len := by simp; omega
  unfold psVerdict
  rw [if_neg (by rw [hlen]; rintro ⟨a, b⟩; exact b (hpre a)), hlen]
  unfold Ps.search
  by_cases hm : p.pre.length + p.suf.length < len
  · rw [if_pos hm, if_pos hm]
    have hr : readAt raw (pos + p.pre.length) (len - p.pre.length) = some (((raw.drop pos).take len).drop p.pre.length) := by
      rw [readAt_some (by omega), List.drop_take, List.drop_drop]
    simp only [hr, Option.bind_eq_bind, Option.bind_some, memmem_spec _ _ hp.1]
    cases hf : findSub p.suf (((raw.drop pos).take len).drop p.pre.length) with
    | none => simp only [Option.pure_def, Option.some.injEq]; split <;> rfl
    | some i =>
      have := (findSub_some hf).2.1
      simp only [List.length_drop, hlen] at this
      simp only [Option.pure_def, Option.some.injEq]
      rw [if_pos (by omega)]
  · rw [if_neg hm, if_neg hm]; rfl

theorem ps_peek {c : Cfg} {p : PsCfg} (hp : p.Valid c) {raw : Bytes} {pos len : Nat} (h1 : pos + len ≤ raw.length) (h2 : len ≤ c.bufSize)
    {cur : Option Nat} (hc : PsCurOk c p ((raw.drop pos).take len) cur) :
    Ps.peek c p raw pos len cur = some (match psVerdict c p ((raw.drop pos).take len) with
      | .frame n => (some n, 0)
      | .wait => (psCur p ((raw.drop pos).take len), c.bufSize)
      | .bad => (psCur p ((raw.drop pos).take len), 0)) := by
  have hlen : ((raw.drop pos).take len).length = len := by simp; omega
  rcases hc with rfl | ⟨rfl, hpre⟩ | ⟨n, rfl, hv⟩
  · unfold Ps.peek
    by_cases hl : p.pre.length ≤ len
    · have hr : readAt raw pos p.pre.length = some (((raw.drop pos).take len).take p.pre.length) := by
        rw [readAt_some (by omega), List.take_take, Nat.min_eq_left hl]
      simp only [hl, if_true, hr, Option.bind_eq_bind, Option.bind_some]
      by_cases hpre : p.pre <+: (raw.drop pos).take len
      · rw [if_pos (prefix_iff_take.mp hpre).symm, ps_search hp h1 h2 (fun _ => hpre)]
        simp only [psCur, hpre, if_true]
      · rw [if_neg (fun h => hpre (prefix_iff_take.mpr h.symm))]
        have hv : psVerdict c p ((raw.drop pos).take len) = .bad := by
          unfold psVerdict; rw [if_pos ⟨by omega, hpre⟩]
        simp only [hv, psCur, hpre, if_false]
        rfl
    · have hpre : ¬ p.pre <+: (raw.drop pos).take len := fun h => by have := h.length_le; omega
      simp only [hl, if_false]
      rw [ps_search hp h1 h2 (fun h => absurd h hl)]
      simp only [psCur, hpre, if_false]
  · unfold Ps.peek
    rw [ps_search hp h1 h2 (fun _ => hpre)]
    simp only [psCur, hpre, if_true]
  · unfold Ps.peek
    rw [hv]

theorem ps_loop {c : Cfg} {p : PsCfg} (hp : p.Valid c) (raw : Bytes) (st : Bool) : ∀ (fuel pos len : Nat) (cur : Option Nat) (ms : List Bytes),
    len < fuel → pos + len ≤ raw.length → len ≤ c.bufSize → PsCurOk c p ((raw.drop pos).take len) cur →
    ∀ fs q, (psFrames c p ((raw.drop pos).take len) = (fs, .incomplete q) ∨ psFrames c p ((raw.drop pos).take len) = (fs, .bad q)) →
    ∃ n, Ps.loop c p raw st fuel pos cur len ms = some (pos + n, psCur p q, q.length, ms ++ psVisible p st fs) ∧
      n + q.length = len ∧ (raw.drop (pos + n)).take q.length = q ∧ (n = 0 ↔ fs = []) := by
  intro fuel
  induction fuel with
  | zero => intro pos len cur ms h; omega
  | succ fuel ih =>
    intro pos len cur ms hf h1 h2 hc fs q hq
    have hlen : ((raw.drop pos).take len).length = len := by simp; omega
    have hpk := ps_peek hp h1 h2 hc
    have hb : 0 < c.bufSize := by have := hp.2; omega
    cases hv : psVerdict c p ((raw.drop pos).take len) with
    | wait =>
      rw [psFrames_wait hv] at hq
      simp only [Prod.mk.injEq, Tail.incomplete.injEq, reduceCtorEq, and_false, or_false] at hq
      obtain ⟨rfl, rfl⟩ := hq
      refine ⟨0, ?_, by omega, by simp [hlen], by simp⟩
      rw [hv] at hpk
      have hb' : ∃ b, c.bufSize = b + 1 := ⟨c.bufSize - 1, by omega⟩
      obtain ⟨b, hb'⟩ := hb'
      simp only [hb'] at hpk
      simp only [Ps.loop, hpk, Option.bind_eq_bind, Option.bind_some, hlen, psVisible]
      simp
    | bad =>
      rw [psFrames_bad hv] at hq
      simp only [Prod.mk.injEq, Tail.bad.injEq, reduceCtorEq, and_false, false_or] at hq
      obtain ⟨rfl, rfl⟩ := hq
      refine ⟨0, ?_, by omega, by simp [hlen], by simp⟩
      rw [hv] at hpk
      simp only [Ps.loop, hpk, Option.bind_eq_bind, Option.bind_some, hlen, psVisible, psCur]
      by_cases hpre : p.pre <+: (raw.drop pos).take len <;> simp [hpre]
    | frame n =>
      obtain ⟨a1, a2, a3, a4, a5, a6, a7⟩ := psVerdict_frame hp hv
      rw [hlen] at a2
      rw [psFrames_frame hp hv] at hq
      have hreg : ((raw.drop pos).take len).drop n = (raw.drop (pos + n)).take (len - n) := by
        rw [List.drop_take, List.drop_drop]
      rw [hreg] at hq
      obtain ⟨n', rfl⟩ : ∃ n', n = n' + 1 := ⟨n - 1, by omega⟩
      have hq' : fs = ((raw.drop pos).take len).take (n' + 1) :: (psFrames c p ((raw.drop (pos + (n' + 1))).take (len - (n' + 1)))).1 ∧
          (psFrames c p ((raw.drop (pos + (n' + 1))).take (len - (n' + 1))) = ((psFrames c p ((raw.drop (pos + (n' + 1))).take (len - (n' + 1)))).1, .incomplete q) ∨
           psFrames c p ((raw.drop (pos + (n' + 1))).take (len - (n' + 1))) = ((psFrames c p ((raw.drop (pos + (n' + 1))).take (len - (n' + 1)))).1, .bad q)) := by
        rcases hq with hq | hq
        · simp only [Prod.mk.injEq] at hq; exact ⟨hq.1.symm, Or.inl (Prod.ext rfl hq.2)⟩
        · simp only [Prod.mk.injEq] at hq; exact ⟨hq.1.symm, Or.inr (Prod.ext rfl hq.2)⟩
      obtain ⟨hfs, hq'⟩ := hq'
      generalize (psFrames c p ((raw.drop (pos + (n' + 1))).take (len - (n' + 1)))).1 = fs' at hfs hq'
      have hf1 : ((raw.drop pos).take len).take (n' + 1) = (raw.drop pos).take (n' + 1) := by rw [List.take_take, Nat.min_eq_left (by omega)]
      have hf2 : ((raw.drop pos).take (n' + 1)).length = n' + 1 := by simp; omega
      rw [hf1] at hfs
      rw [hv] at hpk
      have hm : Ps.body p raw st pos (n' + 1) =
          some (if st then (((raw.drop pos).take (n' + 1)).drop p.pre.length).take (n' + 1 - (p.pre.length + p.suf.length)) else (raw.drop pos).take (n' + 1)) := by
        unfold Ps.body
        cases st
        · simp only [Bool.false_eq_true, if_false]; exact readAt_some (by omega)
        · simp only [if_true]
          rw [readAt_some (by omega), List.drop_take, List.drop_drop, List.take_take, Nat.min_eq_left (by omega)]
      obtain ⟨k, hk1, hk2, hk3, hk4⟩ := ih (pos + (n' + 1)) (len - (n' + 1)) none
        (if p.pre.length + p.suf.length < n' + 1 then ms ++ [if st then (((raw.drop pos).take (n' + 1)).drop p.pre.length).take (n' + 1 - (p.pre.length + p.suf.length)) else (raw.drop pos).take (n' + 1)] else ms)
        (by omega) (by omega) (by omega) (Or.inl rfl) fs' q hq'
      refine ⟨n' + 1 + k, ?_, by omega, by rw [← hk3]; congr 2; omega, ?_⟩
      · simp only [Ps.loop, hpk, Option.bind_eq_bind, Option.bind_some, hm]
        rw [if_neg (by omega), if_neg (by omega), hk1, hfs]
        simp only [Option.some.injEq, Prod.mk.injEq, true_and]
        refine ⟨by omega, ?_⟩
        by_cases hlt : p.pre.length + p.suf.length < n' + 1
        · simp only [hlt, if_true, psVisible, List.filter_cons, hf2, decide_true, List.map_cons, List.append_assoc, List.singleton_append]
        · simp only [hlt, if_false, psVisible, List.filter_cons, hf2, decide_false, Bool.false_eq_true]
      · rw [hfs]; simp

structure PsRel (c : Cfg) (p : PsCfg) (st : Bool) (k : Conn Ps) (q : Bytes) : Prop where
  raw : k.u.raw.length = c.bufSize
  str : k.u.stripped = st
  len : q.length < c.bufSize
  data : k.u.raw.take q.length = q
  cur : k.u.cur = psCur p q
  wait : psVerdict c p q = .wait
  ph : ∃ got, k.ph = .reading (c.bufSize - k.u.remain) got c.bufSize ∧ k.u.remain + got = q.length

theorem psCur_ok {c : Cfg} {p : PsCfg} {q s : Bytes} (h : q <+: s) : PsCurOk c p s (psCur p q) := by
  unfold psCur
  split
  · next hp => exact Or.inr (Or.inl ⟨rfl, hp.trans h⟩)
  · exact Or.inl rfl

theorem ps_start {c : Cfg} {p : PsCfg} (hp : p.Valid c) {u : Ps} {q : Bytes} (h1 : u.raw.length = c.bufSize) (h2 : q.length < c.bufSize)
    (h3 : u.raw.take q.length = q) (h4 : PsCurOk c p q u.cur) (h5 : u.remain = q.length) (log : List RxEvent) :
    ∃ k, startRead (psOps c p) u log = some k ∧ k.log = log ∧
      (psVerdict c p q = .wait → PsRel c p u.stripped k q) ∧ (psVerdict c p q ≠ .wait → k.ph = .stalled) := by
  have hb : ¬ (c.bufSize = 0) := by omega
  have hprep : Ps.prepare c u = some (u, c.bufSize - u.remain) := by rw [Ps.prepare, if_pos (by omega)]
  have hn0 : ¬ (c.bufSize - u.remain = 0) := by omega
  have hreg : (u.raw.drop 0).take (u.remain + 0) = q := by simp [h5, h3]
  have hpk := ps_peek hp (raw := u.raw) (pos := 0) (len := u.remain + 0) (by omega) (by omega) (cur := u.cur) (by rw [hreg]; exact h4)
  rw [hreg] at hpk
  have hle : ¬ (c.bufSize < u.remain + 0) := by omega
  cases hv : psVerdict c p q with
  | wait =>
    rw [hv] at hpk
    simp only at hpk
    refine ⟨{ u := { u with cur := psCur p q }, ph := .reading (c.bufSize - u.remain) 0 c.bufSize, log }, ?_, rfl, ?_, ?_⟩
    · simp only [startRead, psOps, hprep, Option.bind_eq_bind, Option.bind_some, hn0, if_false, Ps.cond, hle, hpk, Option.pure_def, hb]
    · intro _; exact ⟨h1, rfl, h2, h3, rfl, hv, 0, rfl, by simp only; omega⟩
    · intro h; exact absurd rfl h
  | bad =>
    rw [hv] at hpk
    simp only at hpk
    refine ⟨{ u := { u with cur := psCur p q }, ph := .stalled, log }, ?_, rfl, ?_, ?_⟩
    · simp only [startRead, psOps, hprep, Option.bind_eq_bind, Option.bind_some, hn0, if_false, Ps.cond, hle, hpk, Option.pure_def, if_true]
    · intro h; cases h
    · intro _; rfl
  | frame n =>
    rw [hv] at hpk
    simp only at hpk
    refine ⟨{ u := { u with cur := some n }, ph := .stalled, log }, ?_, rfl, ?_, ?_⟩
    · simp only [startRead, psOps, hprep, Option.bind_eq_bind, Option.bind_some, hn0, if_false, Ps.cond, hle, hpk, Option.pure_def, if_true]
    · intro h; cases h
    · intro _; rfl

/-- What one read of the pending data plus new bytes, `s`, does. -/
def PsStep (c : Cfg) (p : PsCfg) (st : Bool) (log : List RxEvent) (s : Bytes) (k' : Conn Ps) : Prop :=
  match psFrames c p s with
  | (fs, .incomplete q') => k'.log = log ++ msgs (psVisible p st fs) ∧ PsRel c p st k' q'
  | (fs, .bad _) => (fs = [] ∧ k'.log = log ++ [.unpackError] ∧ PsRel c p st k' []) ∨
      (fs ≠ [] ∧ k'.log = log ++ msgs (psVisible p st fs) ∧ k'.ph = .stalled)

theorem psVerdict_nil {c : Cfg} {p : PsCfg} : psVerdict c p [] = .wait := by
  unfold psVerdict
  rw [if_neg, if_neg (by simp)]
  rintro ⟨h1, h2⟩
  simp only [List.length_nil, Nat.le_zero, List.length_eq_zero_iff] at h1
  exact h2 (by rw [h1]; exact List.prefix_refl _)

theorem psFrames_bad_rest {c : Cfg} {p : PsCfg} (hp : p.Valid c) (s : Bytes) : ∀ fs q, psFrames c p s = (fs, .bad q) → psVerdict c p q = .bad := by
  fun_induction psFrames c p s with
  | case1 s h => intro fs q hq; simp at hq
  | case2 s h => intro fs q hq; simp at hq; obtain ⟨rfl, rfl⟩ := hq; exact h
  | case3 s n h h0 =>
    obtain ⟨_, h2, _, h4, _⟩ := psVerdict_frame hp h
    omega
  | case4 s n h h0 r ih =>
    intro fs q hq
    simp only [Prod.mk.injEq] at hq
    exact ih r.1 q (Prod.ext rfl hq.2)

theorem ps_recv {c : Cfg} {p : PsCfg} (hp : p.Valid c) {st : Bool} {k : Conn Ps} {s : Bytes} {got : Nat} (h1 : k.u.raw.length = c.bufSize)
    (h0 : k.u.stripped = st) (h2 : s.length ≤ c.bufSize) (h3 : k.u.raw.take s.length = s) (h4 : PsCurOk c p s k.u.cur)
    (h5 : k.u.remain + got = s.length) (h6 : psVerdict c p s ≠ .wait) :
    ∃ k', recvHandler (psOps c p) k got = some k' ∧ PsStep c p st k.log s k' := by
  obtain ⟨⟨raw, cur, remain, stripped⟩, ph, log⟩ := k
  simp only at h0 h1 h3 h4 h5
  subst h0
  have hreg : (raw.drop 0).take (remain + got) = s := by simp [h5, h3]
  have hb0 : 0 < c.bufSize := by have := hp.2; omega
  obtain ⟨fs, q, hq⟩ : ∃ fs q, psFrames c p s = (fs, .incomplete q) ∨ psFrames c p s = (fs, .bad q) := by
    generalize psFrames c p s = F
    obtain ⟨fs, q | q⟩ := F
    · exact ⟨fs, q, Or.inl rfl⟩
    · exact ⟨fs, q, Or.inr rfl⟩
  obtain ⟨n, hl, hn, hd, hn0⟩ := ps_loop hp raw stripped (remain + got + 1) 0 (remain + got) cur [] (by omega) (by omega) (by omega)
    (by rw [hreg]; exact h4) fs q (by rw [hreg]; exact hq)
  simp only [Nat.zero_add, List.nil_append] at hl hd
  have hle : ¬ (c.bufSize < remain + got) := by omega
  by_cases hfs : fs = []
  · have hn' : n = 0 := hn0.mpr hfs
    subst hfs hn'
    have hqb : psFrames c p s = ([], .bad q) := by
      rcases hq with hq | hq
      · obtain ⟨a, _, b, _⟩ := psFrames_incomplete hp s _ _ hq
        have := b rfl
        subst this
        exact absurd a h6
      · exact hq
    obtain ⟨k', hk', hlog, hw, _⟩ := ps_start hp (u := { raw, cur := none, remain := 0, stripped }) (q := []) h1 (by simpa using hb0) (by simp) (Or.inl rfl) rfl
      (log ++ [.unpackError])
    refine ⟨k', ?_, ?_⟩
    · simp only [recvHandler, psOps, Ps.parse, hle, if_false, hl, Option.bind_eq_bind, Option.bind_some, if_true, Option.pure_def,
        Bool.false_eq_true, Ps.reset, psVisible, List.filter_nil, List.map_nil, List.append_nil]
      exact hk'
    · unfold PsStep; rw [hqb]
      exact Or.inl ⟨rfl, hlog, hw psVerdict_nil⟩
  · have hn' : ¬ (n = 0) := fun h => hfs (hn0.mp h)
    have hql : q.length < c.bufSize := by omega
    -- the moved rest
    obtain ⟨raw', hraw', hrl, hrd⟩ : ∃ raw', (if 0 < q.length then
        (readAt raw n q.length).bind (fun d => (writeAt raw 0 d).bind (fun raw => some (({ raw, cur := psCur p q, remain := q.length, stripped } : Ps), psVisible p stripped fs, true)))
        else some (({ raw, cur := psCur p q, remain := q.length, stripped } : Ps), psVisible p stripped fs, true)) =
          some (({ raw := raw', cur := psCur p q, remain := q.length, stripped } : Ps), psVisible p stripped fs, true) ∧ raw'.length = c.bufSize ∧ raw'.take q.length = q := by
      by_cases hq0 : 0 < q.length
      · have hr : readAt raw n q.length = some q := by rw [readAt_some (by omega), hd]
        have hw : writeAt raw 0 q = some (raw.take 0 ++ q ++ raw.drop (0 + q.length)) := writeAt_some (by omega)
        have hwt := writeAt_take hw
        refine ⟨_, ?_, by rw [hwt.1, h1], by simpa using hwt.2⟩
        rw [if_pos hq0, hr, Option.bind_some, hw, Option.bind_some]
      · have : q = [] := List.length_eq_zero_iff.mp (by omega)
        refine ⟨raw, by rw [if_neg hq0], h1, by simp [this]⟩
    obtain ⟨k', hk', hlog, hw, hs⟩ := ps_start hp (u := { raw := raw', cur := psCur p q, remain := q.length, stripped }) (q := q) hrl hql hrd
      (psCur_ok (List.prefix_refl _)) rfl (log ++ msgs (psVisible p stripped fs))
    refine ⟨k', ?_, ?_⟩
    · have hparse : Ps.parse c p { raw, cur, remain, stripped } got = some (({ raw := raw', cur := psCur p q, remain := q.length, stripped } : Ps), psVisible p stripped fs, true) := by
        rw [← hraw']
        simp only [Ps.parse, hle, if_false, hl, Option.bind_eq_bind, Option.bind_some, hn', Option.pure_def]
      simp only [recvHandler, psOps, hparse, Option.bind_eq_bind, Option.bind_some, if_true]
      exact hk'
    · unfold PsStep
      rcases hq with hq | hq
      · rw [hq]; exact ⟨hlog, hw (psFrames_incomplete hp s _ _ hq).1⟩
      · rw [hq]; exact Or.inr ⟨hfs, hlog, hs (by rw [psFrames_bad_rest hp s _ _ hq]; simp)⟩

theorem ps_step {c : Cfg} {p : PsCfg} (hp : p.Valid c) {st cwf : Bool} {k : Conn Ps} {q d : Bytes} {cap got want : Nat} (hR : PsRel c p st k q)
    (hph : k.ph = .reading cap got want) (hdc : got + d.length ≤ cap) :
    ∃ k', readSome (psOps c p) cwf k cap got d = some k' ∧ PsStep c p st k.log (q ++ d) k' := by
  obtain ⟨⟨raw, cur, remain, stripped⟩, ph, log⟩ := k
  obtain ⟨h1, h2, h3, h4, h5, h6, got', h7, h8⟩ := hR
  simp only at h1 h2 h4 h5 h7 h8 hph
  rw [h7] at hph
  simp only [RxPhase.reading.injEq] at hph
  obtain ⟨rfl, rfl, rfl⟩ := hph
  subst h2 h5
  have hw : writeAt raw (remain + got') d = some (raw.take (remain + got') ++ d ++ raw.drop (remain + got' + d.length)) := writeAt_some (by omega)
  generalize raw.take (remain + got') ++ d ++ raw.drop (remain + got' + d.length) = raw' at hw
  have hwt := writeAt_take hw
  rw [h8, h4] at hwt
  have hwr : (psOps c p).write { raw, cur := psCur p q, remain, stripped } got' d = some { raw := raw', cur := psCur p q, remain, stripped } := by
    simp [psOps, Ps.write, hw]
  have hsl : remain + (got' + d.length) = (q ++ d).length := by simp; omega
  have hrl : raw'.length = c.bufSize := by rw [hwt.1, h1]
  have hdat : raw'.take (q ++ d).length = q ++ d := by rw [← hsl, ← hwt.2]; congr 1; omega
  have hreg : (raw'.drop 0).take (remain + (got' + d.length)) = q ++ d := by rw [hsl, List.drop_zero, hdat]
  have hok : PsCurOk c p (q ++ d) (psCur p q) := psCur_ok (List.prefix_append _ _)
  have hsb : (q ++ d).length ≤ c.bufSize := by omega
  have hpk := ps_peek hp (raw := raw') (pos := 0) (len := remain + (got' + d.length)) (by omega) (by omega) (cur := psCur p q) (by rw [hreg]; exact hok)
  rw [hreg] at hpk
  have hle : ¬ (c.bufSize < remain + (got' + d.length)) := by omega
  have hb0 : ¬ (c.bufSize = 0) := by have := hp.2; omega
  cases hv : psVerdict c p (q ++ d) with
  | wait =>
    have hnf : ¬ (got' + d.length = c.bufSize - remain) := by
      intro hf
      have hbl : c.bufSize ≤ (q ++ d).length := by omega
      unfold psVerdict at hv
      split at hv
      · cases hv
      · rw [if_pos (by have := hp.2; omega)] at hv
        split at hv
        · split at hv <;> cases hv
        · cases hv
    rw [hv] at hpk
    simp only at hpk
    refine ⟨{ u := { raw := raw', cur := psCur p (q ++ d), remain, stripped }, ph := .reading (c.bufSize - remain) (got' + d.length) c.bufSize, log }, ?_, ?_⟩
    · unfold readSome
      rw [hwr]
      simp only [Option.bind_eq_bind, Option.bind_some, hnf, if_false, psOps, Ps.cond, hle, hpk, Option.pure_def, hb0]
    · unfold PsStep; rw [psFrames_wait hv]
      exact ⟨by simp [msgs, psVisible], hrl, rfl, by omega, hdat, rfl, hv, got' + d.length, rfl, hsl⟩
  | bad =>
    rw [hv] at hpk
    simp only at hpk
    have hnw : psVerdict c p (q ++ d) ≠ .wait := by rw [hv]; simp
    have r1 := ps_recv hp (k := { u := { raw := raw', cur := psCur p q, remain, stripped }, ph, log }) hrl rfl hsb hdat hok hsl hnw
    have r2 := ps_recv hp (k := { u := { raw := raw', cur := psCur p (q ++ d), remain, stripped }, ph, log }) hrl rfl hsb hdat (psCur_ok (List.prefix_refl _)) hsl hnw
    by_cases hf : got' + d.length = c.bufSize - remain
    · cases cwf
      · refine r1.imp (fun k' h => ⟨?_, h.2⟩)
        rw [← h.1]
        unfold readSome; rw [hwr]
        simp only [Option.bind_eq_bind, Option.bind_some, hf, if_true, Bool.false_eq_true, if_false]
      · refine r2.imp (fun k' h => ⟨?_, h.2⟩)
        rw [← h.1]
        unfold readSome; rw [hwr]
        simp only [Option.bind_eq_bind, Option.bind_some, if_pos hf, if_true]
        have : (psOps c p).cond { raw := raw', cur := psCur p q, remain, stripped } (got' + d.length) =
            some ({ raw := raw', cur := psCur p (q ++ d), remain, stripped }, 0) := by
          simp only [psOps, Ps.cond, hle, if_false, hpk, Option.bind_eq_bind, Option.bind_some, Option.pure_def]
        rw [this]
        rfl
    · refine r2.imp (fun k' h => ⟨?_, h.2⟩)
      rw [← h.1]
      unfold readSome; rw [hwr]
      simp only [Option.bind_eq_bind, Option.bind_some, if_neg hf]
      have : (psOps c p).cond { raw := raw', cur := psCur p q, remain, stripped } (got' + d.length) =
          some ({ raw := raw', cur := psCur p (q ++ d), remain, stripped }, 0) := by
        simp only [psOps, Ps.cond, hle, if_false, hpk, Option.bind_eq_bind, Option.bind_some, Option.pure_def]
      rw [this]
      simp
  | frame n =>
    rw [hv] at hpk
    simp only at hpk
    have hnw : psVerdict c p (q ++ d) ≠ .wait := by rw [hv]; simp
    have hn0 : 0 < n := (psVerdict_frame hp hv).2.2.2.1
    obtain ⟨n', rfl⟩ : ∃ n', n = n' + 1 := ⟨n - 1, by omega⟩
    have r1 := ps_recv hp (k := { u := { raw := raw', cur := psCur p q, remain, stripped }, ph, log }) hrl rfl hsb hdat hok hsl hnw
    have r2 := ps_recv hp (k := { u := { raw := raw', cur := some (n' + 1), remain, stripped }, ph, log }) hrl rfl hsb hdat (Or.inr (Or.inr ⟨n', rfl, hv⟩)) hsl hnw
    have hcond : (psOps c p).cond { raw := raw', cur := psCur p q, remain, stripped } (got' + d.length) =
        some ({ raw := raw', cur := some (n' + 1), remain, stripped }, 0) := by
      simp only [psOps, Ps.cond, hle, if_false, hpk, Option.bind_eq_bind, Option.bind_some, Option.pure_def]
    by_cases hf : got' + d.length = c.bufSize - remain
    · cases cwf
      · refine r1.imp (fun k' h => ⟨?_, h.2⟩)
        rw [← h.1]
        unfold readSome; rw [hwr]
        simp only [Option.bind_eq_bind, Option.bind_some, hf, if_true, Bool.false_eq_true, if_false]
      · refine r2.imp (fun k' h => ⟨?_, h.2⟩)
        rw [← h.1]
        unfold readSome; rw [hwr]
        simp only [Option.bind_eq_bind, Option.bind_some, if_pos hf, if_true]
        rw [hcond]
        rfl
    · refine r2.imp (fun k' h => ⟨?_, h.2⟩)
      rw [← h.1]
      unfold readSome; rw [hwr]
      simp only [Option.bind_eq_bind, Option.bind_some, if_neg hf]
      rw [hcond]
      simp

/-! ### Whole streams -/

/-- State of reception after the bytes `s` beyond the state with log `l0`. -/
def PsInv (c : Cfg) (p : PsCfg) (st : Bool) (l0 : List RxEvent) (s : Bytes) (k : Conn Ps) : Prop :=
  match psFrames c p s with
  | (fs, .incomplete q) => k.log = l0 ++ msgs (psVisible p st fs) ∧ PsRel c p st k q
  | (fs, .bad _) => (fs = [] → ∃ t, k.log = l0 ++ .unpackError :: t) ∧ (∃ t, k.log = l0 ++ msgs (psVisible p st fs) ++ t) ∧
      ((∃ q, PsRel c p st k q) ∨ k.ph = .stalled)

theorem PsInv.live {c : Cfg} {p : PsCfg} {st : Bool} {l0 : List RxEvent} {s : Bytes} {k : Conn Ps} (h : PsInv c p st l0 s k) :
    (∃ q, PsRel c p st k q) ∨ k.ph = .stalled := by
  unfold PsInv at h
  split at h
  · exact Or.inl ⟨_, h.2⟩
  · exact h.2.2

theorem psVisible_append (p : PsCfg) (st : Bool) (a b : List Bytes) : psVisible p st (a ++ b) = psVisible p st a ++ psVisible p st b := by
  simp [psVisible]

theorem ps_inv_step {c : Cfg} {p : PsCfg} (hp : p.Valid c) {st : Bool} {l0 : List RxEvent} {s d : Bytes} {k k' : Conn Ps} {q : Bytes}
    (hi : PsInv c p st l0 s k) (hR : PsRel c p st k q) (hs : ∀ q, PsRel c p st k q → PsStep c p st k.log (q ++ d) k') :
    PsInv c p st l0 (s ++ d) k' := by
  have ha := psFrames_append hp s d
  unfold PsInv at hi ⊢
  generalize psFrames c p s = F at hi ha
  obtain ⟨fs, q0 | q0⟩ := F
  · simp only at hi ha
    have hst := hs q0 hi.2
    rw [ha]
    unfold PsStep at hst
    generalize psFrames c p (q0 ++ d) = G at hst
    obtain ⟨fs', q' | q'⟩ := G
    · simp only at hst ⊢
      exact ⟨by rw [hst.1, hi.1, psVisible_append]; simp [msgs], hst.2⟩
    · simp only at hst ⊢
      rcases hst with ⟨h1, h2, h3⟩ | ⟨h1, h2, h3⟩
      · subst h1
        refine ⟨?_, ⟨[.unpackError], by rw [h2, hi.1]; simp [msgs]⟩, Or.inl ⟨_, h3⟩⟩
        intro he
        simp only [List.append_nil] at he
        subst he
        exact ⟨[], by rw [h2, hi.1]; simp [msgs, psVisible]⟩
      · refine ⟨fun he => absurd (List.append_eq_nil_iff.mp he).2 h1, ⟨[], by rw [h2, hi.1, psVisible_append]; simp [msgs]⟩, Or.inr h3⟩
  · simp only at hi ha
    obtain ⟨h1, ⟨t, h2⟩, h3⟩ := hi
    have hst := hs q hR
    rw [ha]
    simp only
    obtain ⟨l, hl, hlive⟩ : ∃ l, k'.log = k.log ++ l ∧ ((∃ q, PsRel c p st k' q) ∨ k'.ph = .stalled) := by
      unfold PsStep at hst
      generalize psFrames c p (q ++ d) = G at hst
      obtain ⟨fs', q' | q'⟩ := G
      · exact ⟨_, hst.1, Or.inl ⟨_, hst.2⟩⟩
      · rcases hst with ⟨_, h2, h3⟩ | ⟨_, h2, h3⟩
        · exact ⟨_, h2, Or.inl ⟨_, h3⟩⟩
        · exact ⟨_, h2, Or.inr h3⟩
    refine ⟨?_, ⟨t ++ l, by rw [hl, h2]; simp⟩, hlive⟩
    intro he
    obtain ⟨t', ht'⟩ := h1 he
    exact ⟨t' ++ l, by rw [hl, ht']; simp⟩

/-- A stalled connection ignores further data; this is only possible after malformed data. -/
theorem ps_inv_stalled {c : Cfg} {p : PsCfg} (hp : p.Valid c) {st : Bool} {l0 : List RxEvent} {s : Bytes} {k : Conn Ps}
    (hi : PsInv c p st l0 s k) (hst : k.ph = .stalled) (d : Bytes) : PsInv c p st l0 (s ++ d) k := by
  have ha := psFrames_append hp s d
  unfold PsInv at hi ⊢
  generalize psFrames c p s = F at hi ha
  obtain ⟨fs, q0 | q0⟩ := F
  · simp only at hi
    obtain ⟨_, h, _⟩ := hi.2.ph
    rw [hst] at h; cases h
  · simp only at hi ha
    rw [ha]
    exact hi

theorem ps_feedN {c : Cfg} {p : PsCfg} (hp : p.Valid c) {st cwf : Bool} {l0 : List RxEvent} : ∀ (fuel : Nat) (k : Conn Ps) (s d : Bytes),
    d.length ≤ fuel → PsInv c p st l0 s k → ∃ k', feedN (psOps c p) cwf fuel k d = some k' ∧ PsInv c p st l0 (s ++ d) k' := by
  intro fuel
  induction fuel with
  | zero =>
    intro k s d hd h
    have : d = [] := List.length_eq_zero_iff.mp (by omega)
    subst this
    exact ⟨k, rfl, by simpa using h⟩
  | succ fuel ih =>
    intro k s d hd h
    match d, hd with
    | [], _ => exact ⟨k, by simp [feedN], by simpa using h⟩
    | x :: xs, hd =>
      rcases h.live with ⟨q, hq⟩ | hst
      · obtain ⟨got, hph, hgot⟩ := hq.ph
        have hql := hq.len
        let n := min (min c.bufSize (c.bufSize - k.u.remain - got)) (x :: xs).length
        have hn1 : 1 ≤ n := by simp only [n, List.length_cons]; omega
        have hnl : ((x :: xs).take n).length = n := by simp only [List.length_take]; omega
        have hcap : got + ((x :: xs).take n).length ≤ c.bufSize - k.u.remain := by rw [hnl]; simp only [n]; omega
        obtain ⟨k1, hk1, _⟩ := ps_step hp (cwf := cwf) hq hph hcap
        have hi1 : PsInv c p st l0 (s ++ (x :: xs).take n) k1 := by
          refine ps_inv_step hp h hq (fun q' hq' => ?_)
          obtain ⟨k2, hk2, hs2⟩ := ps_step hp (cwf := cwf) hq' hph hcap
          rw [hk1] at hk2
          cases hk2
          exact hs2
        obtain ⟨k2, hk2, hi2⟩ := ih k1 _ ((x :: xs).drop n) (by simp only [List.length_drop]; omega) hi1
        refine ⟨k2, ?_, ?_⟩
        · have hfe : feedN (psOps c p) cwf (fuel + 1) k (x :: xs) =
              (readSome (psOps c p) cwf k (c.bufSize - k.u.remain) got ((x :: xs).take n)).bind (fun k => feedN (psOps c p) cwf fuel k ((x :: xs).drop n)) := by
            simp [feedN, hph, n, bind]
          rw [hfe, hk1]; exact hk2
        · rw [List.append_assoc, List.take_append_drop] at hi2; exact hi2
      · exact ⟨k, by simp [feedN, hst], ps_inv_stalled hp h hst _⟩

theorem ps_feedAll {c : Cfg} {p : PsCfg} (hp : p.Valid c) {st cwf : Bool} {l0 : List RxEvent} : ∀ (ds : List Bytes) (k : Conn Ps) (s : Bytes),
    PsInv c p st l0 s k → ∃ k', feedAll (psOps c p) cwf k ds = some k' ∧ PsInv c p st l0 (s ++ ds.flatten) k' := by
  intro ds
  induction ds with
  | nil => intro k s h; exact ⟨k, rfl, by simpa using h⟩
  | cons d ds ih =>
    intro k s h
    obtain ⟨k1, h1, hi1⟩ := ps_feedN hp (cwf := cwf) d.length k s d (Nat.le_refl _) h
    obtain ⟨k2, h2, hi2⟩ := ih k1 _ hi1
    refine ⟨k2, ?_, by simpa [List.append_assoc] using hi2⟩
    simp [feedAll, feed, h1, h2]

theorem ps_receive {c : Cfg} {p : PsCfg} (hp : p.Valid c) (st cwf : Bool) (raw : Bytes) (hraw : raw.length = c.bufSize) (ds : List Bytes) :
    ∃ k, receive (psOps c p) cwf (Ps.init raw st) ds = some k ∧ PsInv c p st [] ds.flatten k := by
  have hb0 : 0 < c.bufSize := by have := hp.2; omega
  obtain ⟨k0, hk0, hlog, hw, _⟩ := ps_start hp (u := Ps.init raw st) (q := []) hraw (by simpa using hb0) (by simp) (Or.inl rfl) rfl []
  have hi0 : PsInv c p st [] [] k0 := by
    unfold PsInv; rw [psFrames_wait psVerdict_nil]
    exact ⟨by simp [hlog, msgs, psVisible], hw psVerdict_nil⟩
  obtain ⟨k, hk, hi⟩ := ps_feedAll hp (cwf := cwf) ds k0 [] hi0
  exact ⟨k, by simp [receive, hk0, hk], by simpa using hi⟩

theorem feedAll_append {σ : Type} (o : UnpackerOps σ) (cwf : Bool) : ∀ (a b : List Bytes) (k : Conn σ),
    feedAll o cwf k (a ++ b) = (feedAll o cwf k a).bind (fun k => feedAll o cwf k b) := by
  intro a
  induction a with
  | nil => intro b k; rfl
  | cons d a ih =>
    intro b k
    simp only [List.cons_append, feedAll, Option.bind_eq_bind, Option.bind_assoc]
    congr 1
    funext k1
    exact ih b k1

theorem receive_append {σ : Type} (o : UnpackerOps σ) (cwf : Bool) (u : σ) (a b : List Bytes) :
    receive o cwf u (a ++ b) = (receive o cwf u a).bind (fun k => feedAll o cwf k b) := by
  simp only [receive, Option.bind_eq_bind, Option.bind_assoc, feedAll_append]

/-! ### Streams of messages -/

theorem psWire_length (pre suf b : Bytes) : (psWire pre suf b).length = pre.length + b.length + suf.length := by
  simp [psWire]; omega

theorem psArrived_zero (pre suf : Bytes) (hs : suf ≠ []) (st : Bool) (items : List Item) : psArrived pre suf st items 0 = [] := by
  have : 0 < suf.length := List.length_pos_iff.mpr hs
  cases items with
  | nil => rfl
  | cons b rest => rw [psArrived, if_pos (by rw [psWire_length]; omega)]

theorem psVerdict_prefix {c : Cfg} {p : PsCfg} (hp : p.Valid c) {b s t : Bytes} (hb : (psWire p.pre p.suf b).length ≤ c.bufSize)
    (he : NoEarlySuffix p.suf b) (h : s ++ t = psWire p.pre p.suf b) (ht : t ≠ []) : psVerdict c p s = .wait := by
  have htl : 0 < t.length := List.length_pos_iff.mpr ht
  have hlen := congrArg List.length h
  rw [psWire_length] at hlen hb
  simp only [List.length_append] at hlen
  unfold psVerdict
  rw [if_neg]
  · by_cases hm : p.pre.length + p.suf.length < s.length
    · rw [if_pos hm]
      have hd : s.drop p.pre.length ++ t = b ++ p.suf := by
        have := congrArg (List.drop p.pre.length) h
        rw [List.drop_append_of_le_length (by omega), psWire, List.append_assoc, List.drop_left] at this
        exact this
      have : findSub p.suf (s.drop p.pre.length) = none := by
        apply findSub_eq_none
        intro j hj
        have hjl := hj.length_le
        simp only [List.length_drop] at hjl
        have hs0 := List.length_pos_iff.mpr hp.1
        by_cases hjb : j < b.length
        · apply he j hjb
          rw [← hd, List.drop_append_of_le_length (by simp; omega)]
          exact hj.trans (List.prefix_append _ _)
        · have := List.length_pos_iff.mpr hp.1
          omega
      rw [this]
      simp only
      rw [if_neg (by omega)]
    · rw [if_neg hm]
  · rintro ⟨h1, h2⟩
    apply h2
    have h3 := congrArg (List.take p.pre.length) h
    rw [List.take_append_of_le_length h1, psWire, List.append_assoc, List.take_left] at h3
    exact prefix_iff_take.mpr h3

theorem psVerdict_wire {c : Cfg} {p : PsCfg} (hp : p.Valid c) {b s : Bytes} (hb : (psWire p.pre p.suf b).length ≤ c.bufSize)
    (he : NoEarlySuffix p.suf b) (hne : b ≠ [] ∨ s ≠ []) : psVerdict c p (psWire p.pre p.suf b ++ s) = .frame (psWire p.pre p.suf b).length := by
  have hlong : p.pre.length + p.suf.length < (psWire p.pre p.suf b ++ s).length := by
    rw [List.length_append, psWire_length]
    rcases hne with h | h
    · have := List.length_pos_iff.mpr h; omega
    · have := List.length_pos_iff.mpr h; omega
  have hd : (psWire p.pre p.suf b ++ s).drop p.pre.length = (b ++ p.suf) ++ s := by
    rw [psWire, List.append_assoc, List.append_assoc, List.drop_left, List.append_assoc]
  have hf : findSub p.suf ((psWire p.pre p.suf b ++ s).drop p.pre.length) = some b.length := by
    rw [hd]
    apply findSub_eq_some hp.1
    · rw [List.append_assoc, List.drop_left]; exact List.prefix_append _ _
    · intro j hj hc
      apply he j hj
      rw [List.drop_append_of_le_length (by simp; omega), prefix_iff_take, List.take_append_of_le_length (by simp; omega)] at hc
      exact prefix_iff_take.mpr hc
  unfold psVerdict
  rw [if_neg, if_pos hlong, hf]
  · simp only
    rw [psWire_length] at hb ⊢
    rw [if_pos (by omega)]
  · rintro ⟨_, h2⟩
    apply h2
    rw [psWire, List.append_assoc, List.append_assoc]
    exact List.prefix_append _ _

theorem psFrames_items {c : Cfg} {p : PsCfg} (hp : p.Valid c) (st : Bool) : ∀ (items : List Item),
    (∀ b ∈ items, (psWire p.pre p.suf b).length ≤ c.bufSize ∧ NoEarlySuffix p.suf b) →
    ∀ s later, s ++ later = (items.map (psWire p.pre p.suf)).flatten →
    ∃ fs q, psFrames c p s = (fs, .incomplete q) ∧ psVisible p st fs = psArrived p.pre p.suf st items s.length ∧
      (later = [] → items.getLast? ≠ some [] → q = []) := by
  have hsl : 0 < p.suf.length := List.length_pos_iff.mpr hp.1
  intro items
  induction items with
  | nil =>
    intro _ s later h
    simp at h
    obtain ⟨rfl, rfl⟩ := h
    exact ⟨[], [], psFrames_wait psVerdict_nil, rfl, fun _ _ => rfl⟩
  | cons b rest ih =>
    intro hi s later h
    obtain ⟨hb, he⟩ := hi b (by simp)
    simp only [List.map_cons, List.flatten_cons] at h
    rcases Nat.lt_or_ge s.length (psWire p.pre p.suf b).length with hlt | hge
    · -- the first message is not complete
      have hpre : s ++ (psWire p.pre p.suf b).drop s.length = psWire p.pre p.suf b := by
        have h1 := congrArg (List.take s.length) h
        rw [List.take_left, List.take_append_of_le_length (by omega)] at h1
        conv => lhs; lhs; rw [h1]
        exact List.take_append_drop _ _
      have hw := psVerdict_prefix hp hb he hpre (by
        intro h0; have := congrArg List.length h0; simp only [List.length_drop, List.length_nil] at this; omega)
      refine ⟨[], s, psFrames_wait hw, ?_, ?_⟩
      · rw [psArrived, if_pos hlt]; rfl
      · intro hl _
        subst hl
        have := congrArg List.length h
        simp only [List.append_nil, List.length_append] at this
        omega
    · have hs : ∃ s', s = psWire p.pre p.suf b ++ s' ∧ s' ++ later = (rest.map (psWire p.pre p.suf)).flatten := by
        refine ⟨s.drop (psWire p.pre p.suf b).length, ?_, ?_⟩
        · have h1 := congrArg (List.take (psWire p.pre p.suf b).length) h
          rw [List.take_append_of_le_length hge, List.take_left] at h1
          conv => rhs; lhs; rw [← h1]
          exact (List.take_append_drop _ _).symm
        · have h1 := congrArg (List.drop (psWire p.pre p.suf b).length) h
          rw [List.drop_append_of_le_length hge, List.drop_left] at h1
          exact h1
      obtain ⟨s', rfl, hs'⟩ := hs
      obtain ⟨fs, q, h1, h2, h3⟩ := ih (fun x hx => hi x (by simp [hx])) s' later hs'
      by_cases hcase : b = [] ∧ s' = []
      · -- a heartbeat is waiting for more data
        obtain ⟨rfl, rfl⟩ := hcase
        have hw : psVerdict c p (psWire p.pre p.suf [] ++ []) = .wait := by
          unfold psVerdict
          rw [if_neg, if_neg]
          · rw [List.append_nil, psWire_length]; simp
          · rintro ⟨_, hc⟩
            apply hc
            rw [psWire, List.append_assoc, List.append_assoc]
            exact List.prefix_append _ _
        refine ⟨[], _, psFrames_wait hw, ?_, ?_⟩
        · rw [psArrived, if_neg (by simp)]
          simp only [List.append_nil, Nat.sub_self, if_true, List.nil_append]
          rw [psArrived_zero _ _ hp.1]; rfl
        · intro hl hlast
          subst hl
          cases rest with
          | nil => simp at hlast
          | cons x xs =>
            simp only [List.nil_append, List.map_cons, List.flatten_cons] at hs'
            have := congrArg List.length hs'
            simp only [List.length_append, psWire_length, List.length_nil] at this
            omega
      · have hv := psVerdict_wire hp (s := s') hb he (by
          by_cases hb0 : b = []
          · exact Or.inr (fun h => hcase ⟨hb0, h⟩)
          · exact Or.inl hb0)
        rw [psFrames_frame hp hv, List.take_left, List.drop_left, h1]
        refine ⟨_, _, rfl, ?_, ?_⟩
        · rw [psArrived, if_neg (by simp)]
          have hsub : (psWire p.pre p.suf b ++ s').length - (psWire p.pre p.suf b).length = s'.length := by simp
          rw [hsub, ← h2]
          have : psWire p.pre p.suf b :: fs = [psWire p.pre p.suf b] ++ fs := rfl
          simp only [this, psVisible_append]
          congr 1
          by_cases hb0 : b = []
          · subst hb0
            simp [psVisible, psWire]
          · have hbl := List.length_pos_iff.mpr hb0
            rw [if_neg hb0]
            have hdec : p.pre.length + p.suf.length < (psWire p.pre p.suf b).length := by rw [psWire_length]; omega
            simp only [psVisible, List.filter_cons, hdec, decide_true, if_true, List.filter_nil, List.map_cons, List.map_nil]
            congr 2
            have : (psWire p.pre p.suf b).length - (p.pre.length + p.suf.length) = b.length := by rw [psWire_length]; omega
            rw [this, psWire, List.append_assoc, List.drop_left, List.take_left]
        · intro hl hlast
          apply h3 hl
          cases rest with
          | nil => simp
          | cons x xs => simpa using hlast

theorem psMalformed_verdict {c : Cfg} {p : PsCfg} (hp : p.Valid c) {g : Bytes} (h : PsMalformed p.pre p.suf c.bufSize g) : psVerdict c p g = .bad := by
  unfold psVerdict
  by_cases h0 : p.pre.length ≤ g.length ∧ ¬ p.pre <+: g
  · rw [if_pos h0]
  · rw [if_neg h0]
    rcases h with h | ⟨h1, h2⟩
    · exact absurd h h0
    · rw [if_pos (by have := hp.2; omega)]
      cases hf : findSub p.suf (g.drop p.pre.length) with
      | none => simp only; rw [if_pos h1]
      | some i =>
        simp only
        rw [if_neg]
        intro hle
        have := (findSub_some hf).1
        rw [List.drop_drop] at this
        exact h2 i hle this

end StAsio
