import Verif.Lemmas.FileTransfer2

/-!
# Lemmas about the file server
-/

set_option autoImplicit false

namespace StAsio

theorem FMon.run_append (es fs : List FSrvEv) : ∀ m : FMon, FMon.run m (es ++ fs) = (FMon.run m es).bind (fun m1 => FMon.run m1 fs) := by
  induction es with
  | nil => intro m; rfl
  | cons e es ih =>
    intro m
    simp only [List.cons_append, FMon.run]
    cases m.step e with
    | none => rfl
    | some m1 => simp only [Option.bind_some]; exact ih m1

/-- What the observer knows agrees with the state of the server. -/
def FSrvInv (s : FSrv) (m : FMon) : Prop :=
  match s.st with
  | .idle => s.file = none ∧ s.buf = none ∧ s.unp = none ∧ m = FMon.init
  | .prepare => s.file ≠ none ∧ s.buf = none ∧ s.unp = none ∧ m = ⟨some s.flen, false, none⟩
  | .busy =>
    (∃ b, s.buf = some b ∧ s.file = some b.h ∧ s.unp = none ∧ m = ⟨some s.flen, false, some (b.pos, b.total)⟩ ∧ 0 ≤ b.pos ∧ 0 ≤ b.total ∧ b.pos + b.total ≤ s.flen) ∨
    (∃ u, s.unp = some u ∧ s.file = some u.h ∧ s.buf = none ∧ m = ⟨none, true, some (u.pos, u.total)⟩ ∧ 0 ≤ u.pos ∧ 0 ≤ u.total)

theorem FSrvInv.open_ {s : FSrv} {m : FMon} (h : FSrvInv s m) (hf : s.file ≠ none) : m.rd ≠ none ∨ m.wr = true := by
  unfold FSrvInv at h
  split at h
  · exact absurd h.1 hf
  · obtain ⟨_, _, _, rfl⟩ := h; simp
  · rcases h with ⟨b, _, _, _, rfl, _⟩ | ⟨u, _, _, _, rfl, _⟩ <;> simp

/-- trans_end: the file is closed. -/
theorem FSrvInv.transEnd {s : FSrv} {m : FMon} (h : FSrvInv s m) (reset : Bool) :
    FMon.run m (s.transEnd reset).1 = some FMon.init ∧ (s.transEnd reset).2.file = none ∧ (s.transEnd reset).2.st = .idle ∧ (s.transEnd reset).2.buf = s.buf ∧
      (s.transEnd reset).2.unp = (if reset then none else s.unp) ∧ (s.transEnd reset).2.replies = s.replies := by
  cases hf : s.file with
  | none =>
    have hm : m = FMon.init := by
      unfold FSrvInv at h
      split at h
      · exact h.2.2.2
      · exact absurd hf h.1
      · rcases h with ⟨b, _, h2, _⟩ | ⟨u, _, h2, _⟩ <;> rw [hf] at h2 <;> cases h2
    simp [FSrv.transEnd, FSrv.clear, hf, FMon.run, hm]
  | some x =>
    have ho := h.open_ (by rw [hf]; simp)
    simp only [FSrv.transEnd, FSrv.clear, hf, FMon.run, FMon.step]
    rw [if_pos ho]
    simp

theorem FPart.read_ok (b : FPart) (s : FSrv) (ok : Bool) (flen : Nat) (hf : s.file = some b.h) (hp : 0 ≤ b.pos) (ht : 0 < b.total) (hl : b.pos + b.total ≤ flen) :
    ∃ n : Nat, b.read s.file ok = ([.read b.pos n], ⟨b.h, b.pos + n, b.total - n⟩, ok) ∧ 0 < n ∧ (n : Int) ≤ b.total ∧
      FMon.run ⟨some flen, false, some (b.pos, b.total)⟩ [.read b.pos n] = some ⟨some flen, false, some (b.pos + n, b.total - n)⟩ := by
  have key : ∀ n : Nat, 0 < n → (n : Int) ≤ b.total → n ≤ 65536 → FMon.run ⟨some flen, false, some (b.pos, b.total)⟩ [.read b.pos n] = some ⟨some flen, false, some (b.pos + n, b.total - n)⟩ := by
    intro n h1 h2 h3
    simp only [FMon.run, FMon.step]
    rw [if_pos ⟨trivial, h1, h2, h3, hp, by omega⟩]
    rfl
  by_cases hb : b.total > (maxTransfer : Nat)
  · refine ⟨maxTransfer, ?_, by simp [maxTransfer], by omega, key _ (by simp [maxTransfer]) (by omega) (by simp [maxTransfer])⟩
    simp only [FPart.read, if_pos hb, hf, if_true]
  · refine ⟨b.total.toNat, ?_, by omega, by omega, key _ (by omega) (by omega) (by simp only [maxTransfer] at hb; omega)⟩
    simp only [FPart.read, if_neg hb, hf, if_true]

theorem FSrvInv.idle {s : FSrv} (h1 : s.st = .idle) (h2 : s.file = none) (h3 : s.buf = none) (h4 : s.unp = none) : FSrvInv s FMon.init := by
  simp only [FSrvInv, h1]; exact ⟨h2, h3, h4, trivial⟩

theorem FSrvInv.nobuf {s : FSrv} {m : FMon} (h : FSrvInv s m) (hs : s.st ≠ .busy) : s.buf = none ∧ s.unp = none := by
  unfold FSrvInv at h
  split at h
  · exact ⟨h.2.1, h.2.2.1⟩
  · exact ⟨h.2.1, h.2.2.1⟩
  · rename_i hb; exact absurd hb hs

theorem FSrvInv.endIdle {s : FSrv} {m : FMon} (h : FSrvInv s m) (hb : s.buf = none) : FMon.run m (s.transEnd true).1 = some FMon.init ∧ FSrvInv (s.transEnd true).2 FMon.init := by
  obtain ⟨h1, h2, h3, h4, h5, _⟩ := h.transEnd true
  exact ⟨h1, FSrvInv.idle h3 h2 (h4.trans hb) (by simpa using h5)⟩

theorem FSrvInv.whileBusy {s : FSrv} {m : FMon} (h : FSrvInv s m) (hs : s.st = .busy) (hu : s.unp ≠ none) :
    ∃ m', FMon.run m s.whileBusy.1 = some m' ∧ FSrvInv s.whileBusy.2 m' := by
  have hb : s.buf = none := by
    simp only [FSrvInv, hs] at h
    rcases h with ⟨b, _, _, h3, _⟩ | ⟨u, _, _, h3, _⟩
    · exact absurd h3 hu
    · exact h3
  simp only [FSrv.whileBusy]
  split
  · rename_i e; exact absurd e hu
  · split
    · exact ⟨_, h.endIdle hb⟩
    · exact ⟨m, rfl, h⟩

theorem FSrvInv.getInfo {s : FSrv} {m : FMon} (h : FSrvInv s m) (hs : s.st ≠ .busy) (fopen : Option Nat) :
    ∃ m', FMon.run m (s.getInfo fopen).1 = some m' ∧ FSrvInv (s.getInfo fopen).2 m' := by
  simp only [FSrv.getInfo]
  split
  · exact ⟨m, rfl, h⟩
  · obtain ⟨h1, h2, h3, h4, h5, _⟩ := h.transEnd true
    have hb := (h.nobuf hs).1
    cases fopen with
    | none =>
      refine ⟨FMon.init, ?_, ?_⟩
      · simp only [FMon.run_append, h1]; rfl
      · exact FSrvInv.idle h3 h2 (h4.trans hb) (by simpa using h5)
    | some n =>
      refine ⟨⟨some n, false, none⟩, ?_, ?_⟩
      · simp only [FMon.run_append, h1]; rfl
      · simp only [FSrvInv]
        exact ⟨by simp, h4.trans hb, by simpa using h5, trivial⟩

theorem FSrvInv.truncate {s : FSrv} {m : FMon} (h : FSrvInv s m) (hs : s.st ≠ .busy) (fopen : Option Nat) :
    ∃ m', FMon.run m (s.truncate fopen).1 = some m' ∧ FSrvInv (s.truncate fopen).2 m' := by
  simp only [FSrv.truncate]
  split
  · exact ⟨m, rfl, h⟩
  · obtain ⟨h1, h2, h3, h4, h5, _⟩ := h.transEnd true
    have hb := (h.nobuf hs).1
    cases fopen with
    | none =>
      refine ⟨FMon.init, ?_, ?_⟩
      · simp only [FMon.run_append, h1]; rfl
      · exact FSrvInv.idle h3 h2 (h4.trans hb) (by simpa using h5)
    | some n =>
      refine ⟨FMon.init, ?_, ?_⟩
      · simp only [FMon.run_append, h1]; rfl
      · exact FSrvInv.idle h3 h2 (h4.trans hb) (by simpa using h5)

theorem FSrvInv.put {s : FSrv} {m : FMon} (h : FSrvInv s m) (hs : s.st ≠ .busy) (bs : Bytes) (fopen : Option Nat) (hok : 0 ≤ msgOff bs ∧ 0 ≤ msgLen bs) :
    ∃ m', FMon.run m (s.put bs fopen).1 = some m' ∧ FSrvInv (s.put bs fopen).2 m' := by
  simp only [FSrv.put]
  split
  · obtain ⟨h1, h2, h3, h4, h5, _⟩ := h.transEnd true
    have hb := (h.nobuf hs).1
    cases fopen with
    | none =>
      refine ⟨FMon.init, ?_, ?_⟩
      · simp only [FMon.run_append, h1]; rfl
      · exact FSrvInv.idle h3 h2 (h4.trans hb) (by simpa using h5)
    | some n =>
      refine ⟨⟨none, true, some (msgOff bs, msgLen bs)⟩, ?_, ?_⟩
      · simp only [FMon.run_append, h1, Option.bind_some, FMon.run, FMon.step, FMon.init]
        simp [hok.1, hok.2]
      · simp only [FSrvInv]
        refine Or.inr ⟨_, rfl, rfl, h4.trans hb, ?_⟩
        rw [if_neg (by omega)]
        exact ⟨rfl, hok.1, hok.2⟩
  · exact ⟨m, rfl, h⟩

theorem FSrvInv.getRange {s : FSrv} {m : FMon} (h : FSrvInv s m) (hs : s.st ≠ .busy) (bs : Bytes) (ok : Bool) (hov : msgOff bs + msgLen bs < 2 ^ 63) :
    ∃ m', FMon.run m (s.getRange bs ok).1 = some m' ∧ FSrvInv (s.getRange bs ok).2 m' := by
  have hb := (h.nobuf hs).1
  have hu := (h.nobuf hs).2
  simp only [FSrv.getRange]
  split
  · rename_i x hx
    split
    · rename_i hp
      split
      · rename_i hpos
        rw [if_neg (by omega)]
        split
        · rename_i hle
          have hm : m = ⟨some s.flen, false, none⟩ := by
            simp only [FSrvInv, hp.1] at h; exact h.2.2.2
          obtain ⟨n, e1, n0, n1, e2⟩ := FPart.read_ok ⟨x, msgOff bs, msgLen bs⟩ s ok s.flen hx hpos.1 hpos.2 hle
          simp only at e1 n1 e2
          have e0 : m.step (.serve (msgOff bs) (msgLen bs)) = some ⟨some s.flen, false, some (msgOff bs, msgLen bs)⟩ := by
            simp only [hm, FMon.step]
            rw [if_pos ⟨trivial, hpos.1, hpos.2, hle⟩]
          rw [e1]
          cases ok with
          | true =>
            simp only [if_true]
            refine ⟨⟨some s.flen, false, some (msgOff bs + n, msgLen bs - n)⟩, ?_, ?_⟩
            · rw [FMon.run, e0, Option.bind_some, e2]
            · simp only [FSrvInv]
              exact Or.inl ⟨_, rfl, hx, hu, rfl, by simp only []; omega, by simp only []; omega, by simp only []; omega⟩
          | false =>
            simp only [Bool.false_eq_true, if_false]
            refine ⟨FMon.init, ?_, ?_⟩
            · show FMon.run m (.serve (msgOff bs) (msgLen bs) :: ([.read (msgOff bs) n] ++ _)) = _
              rw [FMon.run, e0, Option.bind_some, FMon.run_append, e2]
              simp [FSrv.transEnd, FSrv.clear, hx, FMon.run, FMon.step]
            · refine FSrvInv.idle ?_ ?_ ?_ ?_ <;> simp [FSrv.transEnd, FSrv.clear, hx, hb]
        · exact ⟨_, h.endIdle hb⟩
      · exact ⟨_, h.endIdle hb⟩
    · exact ⟨m, rfl, h⟩
  · exact ⟨m, rfl, h⟩

theorem FSrvInv.chunkSent {s : FSrv} {m : FMon} (h : FSrvInv s m) (b : FPart) (hb : s.buf = some b) (ok : Bool) :
    ∃ m', FMon.run m (s.chunkSent b ok).1 = some m' ∧ FSrvInv (s.chunkSent b ok).2 m' := by
  have hs : s.st = .busy := by
    unfold FSrvInv at h
    split at h
    · rw [hb] at h; exact absurd h.2.1 (by simp)
    · rw [hb] at h; exact absurd h.2.1 (by simp)
    · assumption
  have h0 := h
  simp only [FSrvInv, hs] at h
  rcases h with ⟨b', hb', hf, hu, hm, p0, t0, le⟩ | ⟨u, _, _, hb', _⟩
  · rw [hb] at hb'; cases hb'
    obtain ⟨h1, h2, h3, h4, h5, _⟩ := h0.transEnd false
    simp only [FSrv.chunkSent]
    split
    · exact ⟨FMon.init, h1, FSrvInv.idle h3 h2 rfl (by simpa [hu] using h5)⟩
    · rename_i ht
      obtain ⟨n, e1, n0, n1, e2⟩ := FPart.read_ok b s ok s.flen hf p0 (by omega) le
      rw [e1]
      cases ok with
      | true =>
        simp only [if_true]
        refine ⟨_, by rw [hm]; exact e2, ?_⟩
        simp only [FSrvInv, hs]
        exact Or.inl ⟨_, rfl, hf, hu, rfl, by simp only []; omega, by simp only []; omega, by simp only []; omega⟩
      | false =>
        simp only [Bool.false_eq_true, if_false]
        refine ⟨FMon.init, ?_, ?_⟩
        · rw [FMon.run_append, hm, e2]
          simp [FSrv.transEnd, FSrv.clear, hf, FMon.run, FMon.step]
        · exact FSrvInv.idle h3 h2 rfl (by simpa [hu] using h5)
  · rw [hb] at hb'; cases hb'

theorem FSrvInv.step {s s' : FSrv} {m : FMon} {a : FSrvAct} {es : List FSrvEv} (h : FSrvInv s m) (ha : a.harmless = true) (hs : s.step a = some (es, s')) :
    ∃ m', FMon.run m es = some m' ∧ FSrvInv s' m' := by
  cases a with
  | msg tag bs fopen ok =>
    simp only [FSrvAct.harmless, decide_eq_true_eq] at ha
    subst ha
    simp only [FSrv.step] at hs
    split at hs
    · rename_i hc
      simp only [Option.some.injEq] at hs
      have e1 : es = (s.handleMsg bs fopen ok).1 := by rw [hs]
      have e2 : s' = (s.handleMsg bs fopen ok).2 := by rw [hs]
      rw [e1, e2]
      simp only [FSrv.handleMsg]
      split
      · rename_i hb
        simp only [FSrv.classify, if_pos hb] at hc
        split at hc
        · cases hc
        · rename_i hu; exact h.whileBusy hb hu
      · rename_i hb
        simp only [FSrv.classify, if_neg hb] at hc
        split
        · exact ⟨m, rfl, h⟩
        · split at hc
          · cases hc
          · rename_i hov
            split at hc
            · cases hc
            · rename_i hbad
              split
              · exact h.getInfo hb fopen
              · rename_i h1; exact h.getRange hb bs ok (by rcases Int.lt_or_le (msgOff bs + msgLen bs) (2 ^ 63) with g | g; exact g; exact absurd ⟨h1, g⟩ hov)
              · exact h.truncate hb fopen
              · rename_i h1; exact h.put hb bs fopen (by
                  have : ¬ (msgOff bs < 0 ∨ msgLen bs < 0) := fun g => hbad ⟨h1, g⟩
                  omega)
              · exact ⟨m, rfl, h⟩
    · cases hs
  | replySent =>
    simp only [FSrv.step] at hs
    split at hs
    · cases hs; exact ⟨m, rfl, h⟩
    · cases hs
  | chunkSent ok =>
    simp only [FSrv.step] at hs
    split at hs
    · rename_i b hb
      simp only [Option.some.injEq] at hs
      have e1 : es = (s.chunkSent b ok).1 := by rw [hs]
      have e2 : s' = (s.chunkSent b ok).2 := by rw [hs]
      rw [e1, e2]
      exact h.chunkSent b hb ok
    · cases hs
  | data n =>
    simp only [FSrv.step] at hs
    split at hs
    · rename_i u hu
      split at hs
      · rename_i hn
        simp only [Option.some.injEq, Prod.mk.injEq] at hs
        obtain ⟨rfl, rfl⟩ := hs
        have hst : s.st = .busy := by
          unfold FSrvInv at h
          split at h
          · rw [hu] at h; exact absurd h.2.2.1 (by simp)
          · rw [hu] at h; exact absurd h.2.2.1 (by simp)
          · assumption
        have h0 := h
        simp only [FSrvInv, hst] at h
        rcases h with ⟨b, _, _, hu', _⟩ | ⟨u', hu', hf, hb, hm, p0, t0⟩
        · rw [hu] at hu'; cases hu'
        · rw [hu] at hu'; cases hu'
          have hr := FileUnp.room_eq ⟨u.total, 0⟩ t0
          simp only at hr
          rw [hr] at hn
          simp only [maxTransfer] at hn
          have hnt : (n : Int) ≤ u.total := by omega
          have inv1 : FSrvInv { s with unp := some { u with pos := u.pos + n, total := u.total - n } } ⟨none, true, some (u.pos + n, u.total - n)⟩ := by
            simp only [FSrvInv, hst]
            exact Or.inr ⟨_, rfl, hf, hb, rfl, by simp only []; omega, by simp only []; omega⟩
          obtain ⟨m', r1, r2⟩ := inv1.whileBusy hst (by simp)
          refine ⟨m', ?_, r2⟩
          rw [if_pos hf]
          generalize FSrv.whileBusy _ = e at *
          simp only [FMon.run, FMon.step, hm]
          rw [if_pos ⟨trivial, hnt, by omega⟩]
          simp only [Option.bind_some]
          rw [if_pos ⟨trivial, trivial, hnt⟩]
          exact r1
      · cases hs
    · cases hs

theorem FSrv.inv_run (as : List FSrvAct) (es : List FSrvEv) (s : FSrv) (h : FSrv.Run FSrv.init as es s) (ha : ∀ a ∈ as, a.harmless = true) :
    ∃ m, FMon.run FMon.init es = some m ∧ FSrvInv s m := by
  generalize h0 : FSrv.init = s0 at h
  induction h with
  | nil => subst h0; exact ⟨FMon.init, rfl, FSrvInv.idle rfl rfl rfl rfl⟩
  | snoc s1 s2 as a es fs _ hs ih =>
    obtain ⟨m, h1, h2⟩ := ih (fun b hb => ha b (by simp [hb]))
    obtain ⟨m', h3, h4⟩ := h2.step (ha a (by simp)) hs
    exact ⟨m', by rw [FMon.run_append, h1]; exact h3, h4⟩

theorem FSrv.run_trans {s s1 s2 : FSrv} {as bs : List FSrvAct} {es fs : List FSrvEv} (h1 : FSrv.Run s as es s1) (h2 : FSrv.Run s1 bs fs s2) : FSrv.Run s (as ++ bs) (es ++ fs) s2 := by
  induction h2 with
  | nil => simpa using h1
  | snoc t1 t2 bs b fs gs _ hs ih =>
    rw [← List.append_assoc, ← List.append_assoc]
    exact .snoc _ _ _ _ _ _ _ ih hs

theorem FSrv.exec_run {as : List FSrvAct} : ∀ {s s' : FSrv} {es : List FSrvEv}, FSrv.exec s as = some (es, s') → FSrv.Run s as es s' := by
  induction as with
  | nil => intro s s' es h; simp only [FSrv.exec, Option.some.injEq, Prod.mk.injEq] at h; obtain ⟨rfl, rfl⟩ := h; exact .nil _
  | cons a as ih =>
    intro s s' es h
    simp only [FSrv.exec] at h
    cases hs : s.step a with
    | none => rw [hs] at h; cases h
    | some r =>
      rw [hs] at h
      simp only [Option.bind_some] at h
      cases hq : FSrv.exec r.2 as with
      | none => rw [hq] at h; cases h
      | some q =>
        rw [hq] at h
        simp only [Option.map_some, Option.some.injEq, Prod.mk.injEq] at h
        obtain ⟨rfl, rfl⟩ := h
        have h1 : FSrv.Run s ([] ++ [a]) ([] ++ r.1) r.2 := .snoc _ _ _ _ _ _ _ (.nil _) hs
        exact FSrv.run_trans (as := [a]) (es := r.1) h1 (ih hq)

theorem FGet.run_trans {src : Bytes} {s s1 s2 : FGet} {as bs : List FGetAct} (h1 : FGet.Run src s as s1) (h2 : FGet.Run src s1 bs s2) : FGet.Run src s (as ++ bs) s2 := by
  induction h2 with
  | nil => simpa using h1
  | snoc t1 t2 bs b _ hs ih =>
    rw [← List.append_assoc]
    exact .snoc _ _ _ _ _ ih hs

theorem FGet.exec_run {src : Bytes} {as : List FGetAct} : ∀ {s s' : FGet}, FGet.exec src s as = some s' → FGet.Run src s as s' := by
  induction as with
  | nil => intro s s' h; simp only [FGet.exec, Option.some.injEq] at h; subst h; exact .nil _
  | cons a as ih =>
    intro s s' h
    simp only [FGet.exec] at h
    cases hs : s.step src a with
    | none => rw [hs] at h; cases h
    | some r =>
      rw [hs] at h
      simp only [Option.bind_some] at h
      have h1 : FGet.Run src s ([] ++ [a]) r := .snoc _ _ _ _ _ (.nil _) hs
      exact FGet.run_trans (as := [a]) h1 (ih h)

end StAsio
