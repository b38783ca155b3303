import Verif.Model.Dump
import Verif.Lemmas.Flexible
import Verif.Lemmas.Simple
/-! Hex dumps can be read back; receiving with a log of dumps. -/
set_option autoImplicit false
namespace StAsio

/-! ### The text -/

theorem hexVal_digit {n : Nat} (h : n < 16) : hexVal (hexDigit n) = some n := by
  have : ∀ i : Fin 16, hexVal (hexDigit i.val) = some i.val := by decide
  exact this ⟨n, h⟩

theorem hexDigit_ne {n : Nat} (h : n < 16) : hexDigit n ≠ ' ' ∧ hexDigit n ≠ '\n' ∧ hexDigit n ≠ '\x00' := by
  have : ∀ i : Fin 16, hexDigit i.val ≠ ' ' ∧ hexDigit i.val ≠ '\n' ∧ hexDigit i.val ≠ '\x00' := by decide
  exact this ⟨n, h⟩

/-- The dump of `bs`, whose first byte has number `i`. -/
def dumpFrom : Nat → Bytes → List Char
  | _, [] => []
  | i, b :: bs => dumpSep i ++ hexByte b ++ dumpFrom (i + 1) bs

theorem byte_lt (b : UInt8) : b.toNat / 16 < 16 ∧ b.toNat % 16 < 16 := by
  have := b.toNat_lt
  omega

theorem hexByte_val (b : UInt8) : 16 * UInt8.ofNat (b.toNat / 16) + UInt8.ofNat (b.toNat % 16) = b := by
  have h : UInt8.ofNat (16 * (b.toNat / 16) + b.toNat % 16) = b := by
    have : 16 * (b.toNat / 16) + b.toNat % 16 = b.toNat := by omega
    rw [this]; simp
  simpa using h

theorem readHex_from (bs : Bytes) : ∀ (b : UInt8) (i : Nat), readHex (hexByte b ++ dumpFrom (i + 1) bs) = some (b :: bs) := by
  induction bs with
  | nil =>
    intro b i
    have h := byte_lt b
    simp only [dumpFrom, hexByte, List.append_nil]
    rw [readHex]
    simp [hexVal_digit h.1, hexVal_digit h.2, hexByte_val]
  | cons x xs ih =>
    intro b i
    have h := byte_lt b
    have hx := ih x (i + 1)
    have hne := (hexDigit_ne (byte_lt x).1).1
    simp only [dumpFrom, dumpSep, Nat.succ_pos, if_true]
    split
    · simp only [hexByte, List.cons_append, List.nil_append] at hx ⊢
      rw [readHex]
      simp [hexVal_digit h.1, hexVal_digit h.2, hx, hexByte_val]
      exact fun rest e => hne (List.cons.inj e).1
    · split
      · simp only [hexByte, List.cons_append, List.nil_append] at hx ⊢
        rw [readHex]
        simp [hexVal_digit h.1, hexVal_digit h.2, hx, hexByte_val]
      · simp only [hexByte, List.cons_append, List.nil_append] at hx ⊢
        rw [readHex]
        simp [hexVal_digit h.1, hexVal_digit h.2, hx, hexByte_val]
        exact fun rest e => hne (List.cons.inj e).1

theorem dumpFrom_read (bs : Bytes) : readHex (dumpFrom 0 bs) = some bs := by
  cases bs with
  | nil => simp [dumpFrom, readHex]
  | cons b bs => simpa [dumpFrom, dumpSep] using readHex_from bs b 0

theorem dumpGo_eq (data : Bytes) : ∀ n i, i + n ≤ data.length → dumpGo data n i = some (dumpFrom i ((data.drop i).take n)) := by
  intro n
  induction n with
  | zero => intro i _; simp [dumpGo, dumpFrom]
  | succ n ih =>
    intro i h
    have hi : i < data.length := by omega
    rw [List.drop_eq_getElem_cons hi, List.take_succ_cons]
    simp [dumpGo, dumpFrom, hi, ih (i + 1) (by omega)]

/-- The message about the bytes `r`. -/
def dumpOf (announced : Nat) (r : Bytes) : List Char := dumpMessage announced (dumpFrom 0 r)

theorem dumpLeft_eq {data : Bytes} {cur remain : Nat} (h : remain ≤ data.length) :
    dumpLeft data cur remain =
      some (if 0 < remain then [dumpOf (if cur = 2 ^ 64 - 1 then 0 else cur) (data.take remain)] else []) := by
  unfold dumpLeft
  split
  · rw [dumpGo_eq data remain 0 (by omega)]
    rfl
  · rfl

/-! ### Receiving -/

def Conn.withLog {σ : Type} (k : Conn σ) (l : List (List Char)) : Conn (σ × List (List Char)) := ⟨(k.u, l), k.ph, k.log⟩

variable {σ : Type} {o : UnpackerOps σ} {dump : σ → Nat → σ → Option (List (List Char))}

theorem startRead_dump {u : σ} {log : List RxEvent} {l : List (List Char)} {k : Conn σ} (h : startRead o u log = some k) :
    startRead (dumpOps o dump) (u, l) log = some (k.withLog l) := by
  simp only [startRead, dumpOps, Option.bind_eq_bind, Option.bind_eq_some_iff] at h ⊢
  obtain ⟨⟨u1, cap⟩, h1, h2⟩ := h
  refine ⟨((u1, l), cap), by simp [h1], ?_⟩
  simp only at h2 ⊢
  split at h2
  · cases h2; simp [*, Conn.withLog]
  · next hc =>
    simp only [Option.bind_eq_some_iff] at h2
    obtain ⟨⟨u2, want⟩, h3, h4⟩ := h2
    rw [if_neg hc]
    simp only [h3, Option.map_some, Option.bind_some] at h4 ⊢
    split at h4
    · cases h4; simp [*, Conn.withLog]
    · next hw => cases h4; simp [hw, Conn.withLog]

theorem recvHandler_dump {k k' : Conn σ} {got : Nat} {l : List (List Char)} {Q : List (List Char) → Prop}
    (h : recvHandler o k got = some k')
    (hQ : ∀ u2 ms, o.parse k.u got = some (u2, ms, false) → ∃ t, dump k.u got u2 = some t ∧ Q t) :
    ∃ l', recvHandler (dumpOps o dump) (k.withLog l) got = some (k'.withLog (l ++ l')) ∧
      ((l' = [] ∧ ∃ ms, k'.log = k.log ++ msgs ms) ∨ (Q l' ∧ ∃ ms, k'.log = k.log ++ msgs ms ++ [.unpackError])) := by
  have hlog : ∀ {u : σ} {log : List RxEvent} {k : Conn σ}, startRead o u log = some k → k.log = log := by
    intro u log k h
    simp only [startRead, Option.bind_eq_bind, Option.bind_eq_some_iff] at h
    obtain ⟨⟨u1, cap⟩, h1, h2⟩ := h
    simp only at h2
    split at h2
    · cases h2; rfl
    · simp only [Option.bind_eq_some_iff] at h2
      obtain ⟨⟨u2, want⟩, h3, h4⟩ := h2
      simp only at h4
      split at h4 <;> cases h4 <;> rfl
  simp only [recvHandler, Option.bind_eq_bind, Option.bind_eq_some_iff] at h
  obtain ⟨⟨u2, ms, ok⟩, hp, h2⟩ := h
  simp only at h2
  cases ok with
  | true =>
    simp only [if_true] at h2
    refine ⟨[], ?_, Or.inl ⟨rfl, ms, hlog h2⟩⟩
    simp only [recvHandler, dumpOps, Conn.withLog, hp, Option.bind_eq_bind, Option.bind_some, if_true, List.append_nil]
    exact startRead_dump h2
  | false =>
    simp only [Bool.false_eq_true, if_false] at h2
    obtain ⟨t, ht, hq⟩ := hQ u2 ms hp
    refine ⟨t, ?_, Or.inr ⟨hq, ms, hlog h2⟩⟩
    simp only [recvHandler, dumpOps, Conn.withLog, hp, ht, Option.bind_eq_bind, Option.bind_some, Bool.false_eq_true, if_false, Option.map_some]
    exact startRead_dump h2

theorem readSome_dump {cwf : Bool} {k k' : Conn σ} {cap got : Nat} {d : Bytes} {l : List (List Char)} {Q : List (List Char) → Prop}
    (h : readSome o cwf k cap got d = some k')
    (hQ : ∀ u0 u1, o.write k.u got d = some u0 → (u1 = u0 ∨ ∃ w, o.cond u0 (got + d.length) = some (u1, w)) →
      ∀ u2 ms, o.parse u1 (got + d.length) = some (u2, ms, false) → ∃ t, dump u1 (got + d.length) u2 = some t ∧ Q t) :
    ∃ l', readSome (dumpOps o dump) cwf (k.withLog l) cap got d = some (k'.withLog (l ++ l')) ∧
      ((l' = [] ∧ ∃ ms, k'.log = k.log ++ msgs ms) ∨ (Q l' ∧ ∃ ms, k'.log = k.log ++ msgs ms ++ [.unpackError])) := by
  simp only [readSome, Option.bind_eq_bind, Option.bind_eq_some_iff] at h
  obtain ⟨u0, hw, h⟩ := h
  have hw' : (dumpOps o dump).write (k.u, l) got d = some (u0, l) := by simp [dumpOps, hw]
  have hc' : ∀ u1 w, o.cond u0 (got + d.length) = some (u1, w) → (dumpOps o dump).cond (u0, l) (got + d.length) = some ((u1, l), w) := by
    intro u1 w hc; simp [dumpOps, hc]
  split at h
  · next hf =>
    cases cwf with
    | true =>
      simp only [if_true, Option.bind_eq_some_iff] at h
      obtain ⟨⟨u1, w⟩, hc, h⟩ := h
      obtain ⟨l', h1, h2⟩ := recvHandler_dump (l := l) h (hQ u0 u1 hw (Or.inr ⟨w, hc⟩))
      refine ⟨l', ?_, h2⟩
      simp only [readSome, Option.bind_eq_bind, Conn.withLog, hw', Option.bind_some, hf, if_true]
      rw [← hf, hc' _ _ hc]
      exact h1
    | false =>
      simp only [Bool.false_eq_true, if_false] at h
      obtain ⟨l', h1, h2⟩ := recvHandler_dump (l := l) h (hQ u0 u0 hw (Or.inl rfl))
      refine ⟨l', ?_, h2⟩
      simp only [readSome, Option.bind_eq_bind, Conn.withLog, hw', Option.bind_some, hf, if_true, Bool.false_eq_true, if_false]
      rw [← hf]
      exact h1
  · next hf =>
    simp only [Option.bind_eq_some_iff] at h
    obtain ⟨⟨u1, w⟩, hc, h⟩ := h
    simp only at h
    split at h
    · next hw0 =>
      obtain ⟨l', h1, h2⟩ := recvHandler_dump (l := l) h (hQ u0 u1 hw (Or.inr ⟨w, hc⟩))
      refine ⟨l', ?_, h2⟩
      simp only [readSome, Option.bind_eq_bind, Conn.withLog, hw', Option.bind_some, hf, if_false, hc' _ _ hc, hw0, if_true]
      exact h1
    · next hw0 =>
      cases h
      refine ⟨[], ?_, Or.inl ⟨rfl, [], by simp [msgs]⟩⟩
      simp only [readSome, Option.bind_eq_bind, Conn.withLog, hw', Option.bind_some, hf, if_false, hc' _ _ hc, hw0, List.append_nil]
      rfl

/-- What is in the log after the bytes `s`: nothing as long as they can be unpacked, after that first the bytes from the malformed head on that had arrived when it was noticed. -/
def DumpLog (hl mx : Nat) (ann : Bytes → Nat) (s : Bytes) (l : List (List Char)) : Prop :=
  match (frames hl mx s).2 with
  | .incomplete _ => l = []
  | .bad r => ∃ r' t, l = dumpOf (ann r') r' :: t ∧ r' <+: r ∧ hl ≤ r'.length

/-- A failing parse_msg is followed by the right dump. -/
def DumpsRest (o : UnpackerOps σ) (dump : σ → Nat → σ → Option (List (List Char))) (R : Conn σ → Bytes → Prop) (hl mx : Nat) (ann : Bytes → Nat) : Prop :=
  ∀ k p cap got want d, R k p → k.ph = .reading cap got want → d ≠ [] → d.length ≤ want → got + d.length ≤ cap →
    ∀ u0 u1, o.write k.u got d = some u0 → (u1 = u0 ∨ ∃ w, o.cond u0 (got + d.length) = some (u1, w)) →
      ∀ u2 ms, o.parse u1 (got + d.length) = some (u2, ms, false) →
        ∃ t, dump u1 (got + d.length) u2 = some t ∧ ∀ r, (frames hl mx (p ++ d)).2 = .bad r → t = [dumpOf (ann r) r]

theorem frames_bad_len (hl mx : Nat) (h0 : 0 < hl) (s r : Bytes) (h : (frames hl mx s).2 = .bad r) :
    hl ≤ r.length ∧ (beVal (r.take hl) < hl ∨ mx < beVal (r.take hl)) := by
  fun_induction frames hl mx s with
  | case1 s h' => cases h
  | case2 s h' n hb => cases h; exact ⟨by omega, hb⟩
  | case3 s h' n hb hw => cases h
  | case4 s h' n hb hw r' ih => exact ih h

theorem error_ne {l : List RxEvent} {ms ms' : List Bytes} (h : l ++ msgs ms = l ++ msgs ms' ++ [.unpackError]) : False := by
  rw [List.append_assoc] at h
  have h := List.append_cancel_left h
  have : RxEvent.unpackError ∈ msgs ms := by rw [h]; simp
  simp [msgs] at this

theorem dump_step {cwf : Bool} {R : Conn σ → Bytes → Prop} {hl mx : Nat} {st : Bool} {ann : Bytes → Nat} (h0 : 0 < hl)
    (hs : Simulates o cwf (frameDec hl mx st) R) (hD : DumpsRest o dump R hl mx ann) {k k' : Conn σ} {s d : Bytes} {cap got want : Nat} {l : List (List Char)}
    (ha : After (frameDec hl mx st) R [] s k) (hl' : DumpLog hl mx ann s l) (hph : k.ph = .reading cap got want) (hne : d ≠ []) (hdw : d.length ≤ want)
    (hdc : got + d.length ≤ cap) (hr : readSome o cwf k cap got d = some k') :
    ∃ l', readSome (dumpOps o dump) cwf (k.withLog l) cap got d = some (k'.withLog l') ∧ DumpLog hl mx ann (s ++ d) l' := by
  have key : ∀ p, R k p → ∃ l1, readSome (dumpOps o dump) cwf (k.withLog l) cap got d = some (k'.withLog (l ++ l1)) ∧
      match (frames hl mx (p ++ d)).2 with
      | .incomplete _ => l1 = []
      | .bad r => l1 = [dumpOf (ann r) r] := by
    intro p hp
    obtain ⟨k1, h1, hm⟩ := hs.step k p cap got want d hp hph hne hdw hdc
    rw [hr] at h1; cases h1
    obtain ⟨l1, h2, h3⟩ := readSome_dump (l := l) (dump := dump) (Q := fun t => ∀ r, (frames hl mx (p ++ d)).2 = .bad r → t = [dumpOf (ann r) r]) hr
      (hD k p cap got want d hp hph hne hdw hdc)
    refine ⟨l1, h2, ?_⟩
    unfold frameDec at hm
    cases hF : (frames hl mx (p ++ d)).2 with
    | incomplete q =>
      rw [hF] at hm
      rcases h3 with h3 | ⟨_, ms, h3⟩
      · exact h3.1
      · exact absurd (hm.1.symm.trans h3) error_ne
    | bad r =>
      rw [hF] at hm
      rcases h3 with ⟨_, ms, h3⟩ | h3
      · exact absurd (h3.symm.trans hm.1) error_ne
      · exact h3.1 r hF
  have hfa := frames_append hl mx h0 s d
  unfold DumpLog at hl' ⊢
  unfold After frameDec at ha
  rw [hfa]
  cases hF : (frames hl mx s).2 with
  | incomplete q =>
    rw [hF] at hl' ha
    simp only at hl' ha ⊢
    subst hl'
    obtain ⟨l1, h1, h2⟩ := key q ha.2
    refine ⟨l1, h1, ?_⟩
    cases hG : (frames hl mx (q ++ d)).2 with
    | incomplete q' => rw [hG] at h2; exact h2
    | bad r =>
      rw [hG] at h2
      exact ⟨r, [], h2, List.prefix_refl _, (frames_bad_len hl mx h0 _ _ hG).1⟩
  | bad r =>
    rw [hF] at hl' ha
    simp only at hl' ha ⊢
    obtain ⟨r', t, e, h1, h2⟩ := hl'
    obtain ⟨_, q, hq⟩ := ha
    obtain ⟨l1, h3, _⟩ := key q hq
    exact ⟨l ++ l1, h3, r', t ++ l1, by rw [e]; rfl, h1.trans (List.prefix_append _ _), h2⟩

theorem feedN_dump {cwf : Bool} {R : Conn σ → Bytes → Prop} {hl mx : Nat} {st : Bool} {ann : Bytes → Nat} (h0 : 0 < hl)
    (hi : Incremental (frameDec hl mx st)) (hs : Simulates o cwf (frameDec hl mx st) R) (hD : DumpsRest o dump R hl mx ann) :
    ∀ (fuel : Nat) (k : Conn σ) (s d : Bytes) (l : List (List Char)), d.length ≤ fuel → After (frameDec hl mx st) R [] s k → DumpLog hl mx ann s l →
      ∃ k' l', feedN o cwf fuel k d = some k' ∧ feedN (dumpOps o dump) cwf fuel (k.withLog l) d = some (k'.withLog l') ∧
        After (frameDec hl mx st) R [] (s ++ d) k' ∧ DumpLog hl mx ann (s ++ d) l' := by
  intro fuel
  induction fuel with
  | zero =>
    intro k s d l hd h hl'
    have : d = [] := List.length_eq_zero_iff.mp (by omega)
    subst this
    exact ⟨k, l, rfl, rfl, by simpa using h, by simpa using hl'⟩
  | succ fuel ih =>
    intro k s d l hd h hl'
    match d, hd with
    | [], _ => exact ⟨k, l, by simp [feedN], by simp [feedN], by simpa using h, by simpa using hl'⟩
    | x :: xs, hd =>
      obtain ⟨p, hp⟩ := h.inv
      obtain ⟨cap, got, want, hph, hw, hg⟩ := hs.reading k p hp
      let n := min (min want (cap - got)) (x :: xs).length
      have hn1 : 1 ≤ n := by simp only [n, List.length_cons]; omega
      have hnl : ((x :: xs).take n).length = n := by simp only [List.length_take]; omega
      have hne : (x :: xs).take n ≠ [] := by
        intro h0; rw [h0] at hnl; simp at hnl; omega
      -- the old machine, one read
      obtain ⟨k1, hk1, ha1⟩ := feedN_after hi hs n k [] s ((x :: xs).take n) (by omega) h
      have hone : ∀ m, 1 ≤ m → feedN o cwf m k ((x :: xs).take n) = readSome o cwf k cap got ((x :: xs).take n) := by
        intro m hm
        obtain ⟨m, rfl⟩ : ∃ m', m = m' + 1 := ⟨m - 1, by omega⟩
        have hmin : min (min want (cap - got)) ((x :: xs).take n).length = n := by rw [hnl]; simp only [n]; omega
        have htt : ((x :: xs).take n).take n = (x :: xs).take n := by rw [List.take_take, Nat.min_self]
        have hdd : ((x :: xs).take n).drop n = [] := List.drop_of_length_le (by omega)
        have hend : ∀ c, feedN o cwf m c [] = some c := by intro c; cases m <;> simp [feedN]
        cases hT : (x :: xs).take n with
        | nil => exact absurd hT hne
        | cons y ys =>
          simp only [feedN, hph]
          rw [← hT, hmin, htt, hdd]
          cases readSome o cwf k cap got ((x :: xs).take n) with
          | none => rfl
          | some c => exact hend c
      rw [hone n hn1] at hk1
      obtain ⟨l1, hl1, hd1⟩ := dump_step h0 hs hD h hl' hph hne (by omega) (by omega) hk1
      have hfuel : ((x :: xs).drop n).length ≤ fuel := by simp only [List.length_drop]; omega
      obtain ⟨k2, l2, hk2, hkl2, ha2, hdl2⟩ := ih k1 _ _ l1 hfuel ha1 hd1
      rw [List.append_assoc, List.take_append_drop] at ha2 hdl2
      refine ⟨k2, l2, ?_, ?_, ha2, hdl2⟩
      · have hfe : feedN o cwf (fuel + 1) k (x :: xs) =
            (readSome o cwf k cap got ((x :: xs).take n)).bind (fun c => feedN o cwf fuel c ((x :: xs).drop n)) := by
          simp [feedN, hph, n, bind]
        rw [hfe, hk1]; exact hk2
      · have hph' : (k.withLog l).ph = .reading cap got want := hph
        have hfe : feedN (dumpOps o dump) cwf (fuel + 1) (k.withLog l) (x :: xs) =
            (readSome (dumpOps o dump) cwf (k.withLog l) cap got ((x :: xs).take n)).bind (fun c => feedN (dumpOps o dump) cwf fuel c ((x :: xs).drop n)) := by
          simp [feedN, hph', n, bind]
        rw [hfe, hl1]; exact hkl2

theorem receive_dump {cwf : Bool} {R : Conn σ → Bytes → Prop} {hl mx : Nat} {st : Bool} {ann : Bytes → Nat} {u0 : σ} (h0 : 0 < hl)
    (hi : Incremental (frameDec hl mx st)) (hs : Simulates o cwf (frameDec hl mx st) R) (hD : DumpsRest o dump R hl mx ann)
    (hst : ∃ c0, startRead o u0 [] = some c0 ∧ c0.log = [] ∧ R c0 []) (ds : List Bytes) :
    ∃ k l, receive (dumpOps o dump) cwf (u0, []) ds = some (k.withLog l) ∧ receive o cwf u0 ds = some k ∧ DumpLog hl mx ann ds.flatten l := by
  obtain ⟨c0, hc0, hl0, hR0⟩ := hst
  have ha : After (frameDec hl mx st) R [] [] c0 := by
    unfold After; rw [hi.nil]; exact ⟨by simp [hl0, msgs], hR0⟩
  have hd0 : DumpLog hl mx ann [] [] := by
    unfold DumpLog; rw [frames_short (by simpa using h0)]
  have all : ∀ (ds : List Bytes) (k : Conn σ) (s : Bytes) (l : List (List Char)), After (frameDec hl mx st) R [] s k → DumpLog hl mx ann s l →
      ∃ k' l', feedAll o cwf k ds = some k' ∧ feedAll (dumpOps o dump) cwf (k.withLog l) ds = some (k'.withLog l') ∧ DumpLog hl mx ann (s ++ ds.flatten) l' := by
    intro ds
    induction ds with
    | nil => intro k s l _ hl'; exact ⟨k, l, rfl, rfl, by simpa using hl'⟩
    | cons d ds ih =>
      intro k s l ha hl'
      obtain ⟨k1, l1, h1, h2, h3, h4⟩ := feedN_dump h0 hi hs hD d.length k s d l (Nat.le_refl _) ha hl'
      obtain ⟨k2, l2, h5, h6, h7⟩ := ih k1 _ l1 h3 h4
      refine ⟨k2, l2, ?_, ?_, by simpa [List.append_assoc] using h7⟩
      · simp only [feedAll, feed, h1, Option.bind_eq_bind, Option.bind_some]; exact h5
      · simp only [feedAll, feed, h2, Option.bind_eq_bind, Option.bind_some]; exact h6
  obtain ⟨k, l, h1, h2, h3⟩ := all ds c0 [] [] ha hd0
  refine ⟨k, l, ?_, ?_, by simpa using h3⟩
  · simp only [receive, startRead_dump hc0, Option.bind_eq_bind, Option.bind_some]; exact h2
  · simp only [receive, hc0, Option.bind_eq_bind, Option.bind_some]; exact h1

end StAsio
