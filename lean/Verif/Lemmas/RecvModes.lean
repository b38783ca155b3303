import Verif.Model.RecvModes
import Verif.Lemmas.Queue
set_option autoImplicit false
namespace StAsio

set_option linter.unusedSimpArgs false

theorem mStrip_append (p r : List Bytes) : mStrip p (p ++ r) = some r := by
  induction p with
  | nil => rfl
  | cons a p ih => simp [mStrip, ih]

theorem mStrip_self (p : List Bytes) : mStrip p p = some [] := by simpa using mStrip_append p []

theorem mStrip_some {p l r : List Bytes} (h : mStrip p l = some r) : l = p ++ r := by
  induction p generalizing l with
  | nil => simpa [mStrip] using h
  | cons a p ih =>
    cases l with
    | nil => simp [mStrip] at h
    | cons b l =>
      simp only [mStrip] at h
      split at h
      · rename_i hab; rw [hab, ih h]; rfl
      · cases h

theorem Rm.moveIn_own (q : Q Bytes) (ms : List Bytes) : q.moveIn rsz ms (getSizeInByte rsz ms) = some ⟨q.items ++ ms, w64add q.total (getSizeInByte rsz ms)⟩ := by
  simp only [Q.moveIn, Q.declared]
  split
  · rfl
  · rfl

theorem Rm.moveIn_zero (q : Q Bytes) (ms : List Bytes) : q.moveIn rsz ms 0 = some ⟨q.items ++ ms, w64add q.total (getSizeInByte rsz ms)⟩ := by
  simp [Q.moveIn, Q.declared]

theorem Rm.enqueue_own (s : Rm) (ms : List Bytes) : s.enqueue ms (getSizeInByte rsz ms) =
    ({ s with buf := ⟨s.buf.items ++ ms, w64add s.buf.total (getSizeInByte rsz ms)⟩, hp := .moved, temp := [] }, [.queued ms]) := by
  simp only [Rm.enqueue, Rm.moveIn_own]

theorem Rm.enqueue_zero (s : Rm) (ms : List Bytes) : s.enqueue ms 0 =
    ({ s with buf := ⟨s.buf.items ++ ms, w64add s.buf.total (getSizeInByte rsz ms)⟩, hp := .moved, temp := [] }, [.queued ms]) := by
  simp only [Rm.enqueue, Rm.moveIn_zero]

theorem Rm.deq_nil {q : Q Bytes} (h : q.items = []) : q.tryDequeue rsz = (q, none) := by simp [Q.tryDequeue, h]

theorem Rm.deq_cons {q : Q Bytes} {m : Bytes} {l : List Bytes} (h : q.items = m :: l) : q.tryDequeue rsz = (⟨l, w64sub q.total (rsz m)⟩, some m) := by simp [Q.tryDequeue, h]

theorem Rm.exact_add {q : Q Bytes} (h : q.Exact rsz) (ms : List Bytes) : Q.Exact rsz (⟨q.items ++ ms, w64add q.total (getSizeInByte rsz ms)⟩ : Q Bytes) := by
  unfold Q.Exact at *
  simp only [sumSize_append, w64add, getSizeInByte_eq, h]
  omega

theorem Rm.exact_sub {q : Q Bytes} {m : Bytes} {l : List Bytes} (h : q.Exact rsz) (hi : q.items = m :: l) : Q.Exact rsz (⟨l, w64sub q.total (rsz m)⟩ : Q Bytes) := by
  unfold Q.Exact at *
  rw [hi, sumSize_cons] at h
  simp only [h, w64sub]
  omega

theorem Rm.exact_nil : Q.Exact rsz (⟨[], 0⟩ : Q Bytes) := rfl

/-- The tokens of the receiving chain. -/
def Rm.tokens (s : Rm) : Nat := s.out.toNat + (if s.hp = .idle then 0 else 1) + s.ctimer.toNat + s.rposted

structure Rm.Inv (c : MCfg) (s : Rm) : Prop where
  bad : s.bad = false
  flag : c.passive = true → s.reading = s.out
  chain : c.passive = false → s.tokens ≤ 1
  batch : c.batch = true → s.cur = none
  idle : c.batch = false → s.pc = .idle → (s.dispatching = true ↔ s.cur ≠ none)
  got : c.batch = false → s.pc = .got → s.cur ≠ none
  handling : s.pc = .handling → s.dispatching = true ∧ (c.batch = false → s.cur ≠ none)
  refused : s.pc = .refused → s.dispatching = true ∧ (c.batch = false → s.cur ≠ none)
  clearing : s.pc = .clearing → s.cur = none ∧ s.dispatching = true
  posting : s.pc = .posting → s.cur = none ∧ s.dispatching = false
  wakeD : s.pc = .idle → s.dispatching = true → s.dtimer = true ∨ 0 < s.posted ∨ s.dlost = true
  wakeB : s.buf.items ≠ [] → 0 < s.posted ∨ s.pc ≠ .idle ∨ s.dispatching = true ∨ s.hp = .moved

theorem Rm.inv_init (c : MCfg) : Rm.init.Inv c := by
  constructor <;> simp [Rm.init, Rm.tokens, Q.init]

def Rm.ideal (s : Rm) : IdealM :=
  { reading := s.out, fresh := if s.hp = .parsed then s.temp else [], inMsg := decide (s.hp = .inMsg), waiting := s.buf.items, cur := s.cur, busy := decide (s.pc = .handling) }

/-- The receive buffer after messages were moved in. -/
def Rm.put (s : Rm) (ms : List Bytes) : Rm := { s with buf := ⟨s.buf.items ++ ms, w64add s.buf.total (getSizeInByte rsz ms)⟩, hp := .moved, temp := [] }

theorem Rm.handle_cases {c : MCfg} {limit : Nat} {s s' : Rm} {fs : List MEv} (hs : s.step c limit .handle = some (s', fs)) : s.hp = .parsed ∧
    ((c.sync = true ∧ s' = { s with hp := .inMsg } ∧ fs = [.onMsg s.temp]) ∨ (s.temp = [] ∧ c.passive = false ∧ s' = { s with hp := .check } ∧ fs = []) ∨
      (∃ ms, s' = s.put ms ∧ fs = [.queued ms] ∧ c.sync = false ∧ ms ≠ [] ∧ ((ms = s.temp) ∨ (s.temp = [] ∧ c.passive = true ∧ ms = [[]])))) := by
  simp only [Rm.step] at hs
  by_cases hp : s.hp = .parsed
  · rw [if_neg (by simp [hp])] at hs
    refine ⟨hp, ?_⟩
    split at hs
    · rename_i hc
      split at hs
      · cases hs; exact Or.inl ⟨hc, rfl, rfl⟩
      · rename_i hn
        simp only [not_or, Bool.not_eq_true, ne_eq, Decidable.not_not] at hn
        cases hs; exact Or.inr (Or.inl ⟨hn.2, hn.1, rfl, rfl⟩)
    · rename_i hc
      have hc : c.sync = false := by simpa using hc
      split at hs
      · rename_i ht
        split at hs
        · rename_i hpa
          rw [ht, show getSizeInByte rsz ([] : List Bytes) = 0 from rfl, Rm.enqueue_zero] at hs
          cases hs
          exact Or.inr (Or.inr ⟨[[]], rfl, rfl, hc, by simp, Or.inr ⟨ht, hpa, rfl⟩⟩)
        · rename_i hpa
          cases hs; exact Or.inr (Or.inl ⟨ht, by simpa using hpa, rfl, rfl⟩)
      · rename_i ht
        rw [Rm.enqueue_own] at hs
        cases hs
        exact Or.inr (Or.inr ⟨s.temp, rfl, rfl, hc, ht, Or.inl rfl⟩)
  · rw [if_pos hp] at hs; cases hs

theorem Rm.onMsg_cases {c : MCfg} {limit : Nat} {s s' : Rm} {left : List Bytes} {n : Nat} {fs : List MEv} (ha : (MAct.onMsgRet left n).honest s) (hs : s.step c limit (.onMsgRet left n) = some (s', fs)) : s.hp = .inMsg ∧
    ((left = [] ∧ s' = { s with hp := .check, temp := [] } ∧ fs = [.onMsgRet left n]) ∨ (left ≠ [] ∧ s' = s.put left ∧ fs = [.onMsgRet left n, .queued left])) := by
  simp only [Rm.step] at hs
  by_cases hp : s.hp = .inMsg
  · rw [if_neg (by simp [hp])] at hs
    refine ⟨hp, ?_⟩
    split at hs
    · split at hs
      · rename_i hl
        cases hs; exact Or.inl ⟨hl, rfl, rfl⟩
      · rename_i hl
        rw [Rm.enqueue_zero] at hs
        cases hs; exact Or.inr ⟨hl, rfl, rfl⟩
    · rename_i hn
      have hl : left = s.temp := ha (by omega)
      split at hs
      · rename_i ht
        cases hs; exact Or.inl ⟨by rw [hl, ht], by rw [hl, ht], rfl⟩
      · rename_i ht
        rw [hl, Rm.enqueue_own] at hs
        cases hs; exact Or.inr ⟨by rw [hl]; exact ht, by rw [hl]; rfl, by rw [hl]⟩
  · rw [if_pos hp] at hs; cases hs

set_option maxHeartbeats 2000000 in
theorem Rm.inv_step {c : MCfg} {limit : Nat} {s s' : Rm} {a : MAct} {fs : List MEv} (h : s.Inv c) (ha : a.honest s) (hs : s.step c limit a = some (s', fs)) : s'.Inv c := by
  cases a with
  | handle =>
    obtain ⟨h1, h2, h3, h4, h5, h6, h7, h8, h9, h10, h11, h12⟩ := h
    obtain ⟨hp, ⟨_, rfl, rfl⟩ | ⟨_, _, rfl, rfl⟩ | ⟨ms, rfl, rfl, _⟩⟩ := Rm.handle_cases hs <;> constructor <;> grind [Rm.tokens, Rm.put]
  | onMsgRet left n =>
    obtain ⟨h1, h2, h3, h4, h5, h6, h7, h8, h9, h10, h11, h12⟩ := h
    obtain ⟨hp, ⟨_, rfl, rfl⟩ | ⟨_, rfl, rfl⟩⟩ := Rm.onMsg_cases ha hs <;> constructor <;> grind [Rm.tokens, Rm.put]
  | _ =>
    obtain ⟨h1, h2, h3, h4, h5, h6, h7, h8, h9, h10, h11, h12⟩ := h
    cases hi : s.buf.items with
    | nil =>
      have hd := Rm.deq_nil hi
      simp only [Rm.step, Rm.startRead, Q.swap, Q.clear, hd] at hs <;> (repeat' split at hs) <;>
        first | (cases hs; done) | (simp only [Option.some.injEq, Prod.mk.injEq] at hs; obtain ⟨rfl, rfl⟩ := hs; constructor <;> grind [Rm.tokens, Rm.still, Option.isNone_iff_eq_none, Option.isSome_iff_ne_none])
    | cons m l =>
      have hd := Rm.deq_cons hi
      simp only [Rm.step, Rm.startRead, Q.swap, Q.clear, hd] at hs <;> (repeat' split at hs) <;>
        first | (cases hs; done) | (simp only [Option.some.injEq, Prod.mk.injEq] at hs; obtain ⟨rfl, rfl⟩ := hs; constructor <;> grind [Rm.tokens, Rm.still, Option.isNone_iff_eq_none, Option.isSome_iff_ne_none])

theorem Rm.exact_step {c : MCfg} {limit : Nat} {s s' : Rm} {a : MAct} {fs : List MEv} (h : s.buf.Exact rsz) (ha : a.honest s) (hs : s.step c limit a = some (s', fs)) : s'.buf.Exact rsz := by
  cases a with
  | handle => obtain ⟨hp, ⟨_, rfl, rfl⟩ | ⟨_, _, rfl, rfl⟩ | ⟨ms, rfl, rfl, _⟩⟩ := Rm.handle_cases hs <;> first | exact h | exact Rm.exact_add h _
  | onMsgRet left n => obtain ⟨hp, ⟨_, rfl, rfl⟩ | ⟨_, rfl, rfl⟩⟩ := Rm.onMsg_cases ha hs <;> first | exact h | exact Rm.exact_add h _
  | _ =>
    cases hi : s.buf.items with
    | nil =>
      have hd := Rm.deq_nil hi
      simp only [Rm.step, Rm.startRead, Q.swap, Q.clear, hd] at hs <;> (repeat' split at hs) <;>
        first | (cases hs; done) | (simp only [Option.some.injEq, Prod.mk.injEq] at hs; obtain ⟨rfl, rfl⟩ := hs; first | exact h | exact Rm.exact_nil)
    | cons m l =>
      have hd := Rm.deq_cons hi
      simp only [Rm.step, Rm.startRead, Q.swap, Q.clear, hd] at hs <;> (repeat' split at hs) <;>
        first | (cases hs; done) | (simp only [Option.some.injEq, Prod.mk.injEq] at hs; obtain ⟨rfl, rfl⟩ := hs; first | exact h | exact Rm.exact_nil | exact Rm.exact_sub h hi)

set_option maxHeartbeats 2000000 in
theorem Rm.mon_step {c : MCfg} {limit : Nat} {s s' : Rm} {a : MAct} {fs : List MEv} (h : s.Inv c) (ha : a.honest s) (hs : s.step c limit a = some (s', fs)) :
    s.ideal.monitor c.batch c.sync c.passive fs = some s'.ideal := by
  cases a with
  | handle =>
    obtain ⟨hp, ⟨_, rfl, rfl⟩ | ⟨_, _, rfl, rfl⟩ | ⟨ms, rfl, rfl, hm⟩⟩ := Rm.handle_cases hs
    · simp_all [IdealM.monitor, IdealM.event, Rm.ideal]
    · simp_all [IdealM.monitor, Rm.ideal]
    · obtain ⟨g1, g2, g3⟩ := hm
      rcases g3 with g3 | g3 <;> simp_all [IdealM.monitor, IdealM.event, Rm.ideal, Rm.put]
  | onMsgRet left n =>
    obtain ⟨hp, ⟨_, rfl, rfl⟩ | ⟨_, rfl, rfl⟩⟩ := Rm.onMsg_cases ha hs <;> simp_all [IdealM.monitor, IdealM.event, Rm.ideal, Rm.put] <;> rfl
  | _ =>
    obtain ⟨h1, h2, h3, h4, h5, h6, h7, h8, h9, h10, h11, h12⟩ := h
    cases hi : s.buf.items with
    | nil =>
      have hd := Rm.deq_nil hi
      simp only [Rm.step, Rm.startRead, Q.swap, Q.clear, hd] at hs <;> (repeat' split at hs) <;>
        first | (cases hs; done) | (simp only [Option.some.injEq, Prod.mk.injEq] at hs; obtain ⟨rfl, rfl⟩ := hs; first | rfl | (simp only [IdealM.monitor, IdealM.event, Rm.ideal]; done) | (simp only [IdealM.monitor, IdealM.event, Rm.ideal]; grind [Rm.tokens, Rm.still, Option.isNone_iff_eq_none, Option.isSome_iff_ne_none, mStrip]))
    | cons m l =>
      have hd := Rm.deq_cons hi
      simp only [Rm.step, Rm.startRead, Q.swap, Q.clear, hd] at hs <;> (repeat' split at hs) <;>
        first | (cases hs; done) | (simp only [Option.some.injEq, Prod.mk.injEq] at hs; obtain ⟨rfl, rfl⟩ := hs; first | rfl | (simp only [IdealM.monitor, IdealM.event, Rm.ideal]; done) | (simp only [IdealM.monitor, IdealM.event, Rm.ideal]; grind [Rm.tokens, Rm.still, Option.isNone_iff_eq_none, Option.isSome_iff_ne_none, mStrip, mStrip_self]))

theorem mMonitor_append (b y p : Bool) (t : IdealM) (es fs : List MEv) : t.monitor b y p (es ++ fs) = (t.monitor b y p es).bind (fun t => t.monitor b y p fs) := by
  induction es generalizing t with
  | nil => rfl
  | cons e es ih =>
    simp only [List.cons_append, IdealM.monitor]
    cases t.event b y p e with
    | none => rfl
    | some t' => exact ih t'

theorem Rm.run_good {c : MCfg} {limit : Nat} {as : List MAct} {s : Rm} {es : List MEv} (h : Rm.Run c limit Rm.init as s es) :
    s.Inv c ∧ s.buf.Exact rsz ∧ IdealM.init.monitor c.batch c.sync c.passive es = some s.ideal := by
  generalize h0 : Rm.init = s0 at h
  induction h with
  | nil => subst h0; exact ⟨Rm.inv_init c, rfl, rfl⟩
  | snoc s1 s2 as a es fs _ ha hs ih =>
    obtain ⟨h1, h2, h3⟩ := ih
    refine ⟨Rm.inv_step h1 ha hs, Rm.exact_step h2 ha hs, ?_⟩
    rw [mMonitor_append, h3]
    exact Rm.mon_step h1 ha hs

theorem Rm.run_trans {c : MCfg} {limit : Nat} {s s1 s2 : Rm} {as bs : List MAct} {es fs : List MEv} (h1 : Rm.Run c limit s as s1 es) (h2 : Rm.Run c limit s1 bs s2 fs) :
    Rm.Run c limit s (as ++ bs) s2 (es ++ fs) := by
  induction h2 with
  | nil => simpa using h1
  | snoc s2 s3 bs a fs fs' _ ha hs ih =>
    rw [← List.append_assoc, ← List.append_assoc]
    exact Rm.Run.snoc _ _ _ _ _ _ _ ih ha hs

theorem Rm.run_one {c : MCfg} {limit : Nat} {s s' : Rm} {a : MAct} {fs : List MEv} (ha : a.honest s) (h : s.step c limit a = some (s', fs)) : Rm.Run c limit s [a] s' fs := by
  simpa using Rm.Run.snoc _ _ _ _ _ _ _ (Rm.Run.nil s) ha h

end StAsio
