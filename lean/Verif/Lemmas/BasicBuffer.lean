import Verif.Spec.ByteString
import Verif.Lemmas.Unpacker
set_option autoImplicit false
namespace StAsio

structure Bb.Wf (b : Bb) : Prop where
  null : b.mem = none → b.cap = 0
  block : ∀ m, b.mem = some m → m.length = b.cap
  len : b.len ≤ b.cap
  max : b.cap ≤ 4294967295
  align : b.cap % 16 = 0 ∨ b.cap = 4294967295

theorem Bb.Wf.size {b : Bb} (h : b.Wf) : b.size = b.len := by
  unfold Bb.size
  cases hm : b.mem with
  | none => have := h.null hm; have := h.len; simp; omega
  | some m => simp

theorem Bb.Wf.content_len {b : Bb} (h : b.Wf) : b.content.length = b.len := by
  unfold Bb.content
  rw [h.size, List.length_take]
  have := h.len
  cases hm : b.mem with
  | none => have := h.null hm; simp; omega
  | some m => have := h.block m hm; simp; omega

theorem Bb.Wf.content_some {b : Bb} (h : b.Wf) {m : Bytes} (hm : b.mem = some m) : b.content = m.take b.len := by
  unfold Bb.content; rw [h.size, hm]; rfl

theorem Bb.empty_wf : Bb.empty.Wf where
  null := fun _ => rfl
  block := by intro m h; simp [Bb.empty] at h
  len := by decide
  max := by decide
  align := Or.inl rfl

theorem Bb.round_spec {n : Nat} (h : n ≤ 4294967295) : n ≤ Bb.round n ∧ Bb.round n ≤ 4294967295 ∧ (Bb.round n % 16 = 0 ∨ Bb.round n = 4294967295) := by
  unfold Bb.round bbMax
  simp only
  split
  · split <;> omega
  · omega

/-- `reserve` succeeds for every request up to UINT_MAX, keeps the content, and provides the capacity asked for. -/
theorem Bb.reserve_spec {junk : Nat → Bytes} (hj : ∀ n, (junk n).length = n) {b : Bb} (h : b.Wf) (n : Nat) :
    (n ≤ 4294967295 → ∃ b', b.reserve junk n = some (b', none) ∧ b'.Wf ∧ b'.len = b.len ∧ b'.content = b.content ∧ n ≤ b'.cap ∧ 0 < b'.cap ∧
      (∀ k, k ≤ b.len → (b'.mem.getD []).take k = (b.mem.getD []).take k)) ∧
    (4294967295 < n → b.reserve junk n = some (b, some .lengthError)) := by
  have hmax : bbMax = 4294967295 := by decide
  constructor
  · intro hn
    unfold Bb.reserve
    rw [if_neg (by omega)]
    simp only
    have hl := h.len
    have hcm := h.max
    have hc1 : ∃ c1, (if n < b.len then b.len else if n = 0 then 16 else n) = c1 ∧ n ≤ c1 ∧ b.len ≤ c1 ∧ c1 ≤ 4294967295 ∧ 0 < c1 := by
      refine ⟨_, rfl, ?_⟩
      split
      · omega
      · split <;> omega
    obtain ⟨c1, hc1, h1, h2, h3, h3'⟩ := hc1
    rw [hc1]
    by_cases he : c1 = b.cap
    · rw [if_neg (by simp [he])]
      exact ⟨b, rfl, h, rfl, rfl, by omega, by omega, fun _ _ => rfl⟩
    · rw [if_pos he]
      have hc2 : ∃ c2, (if b.cap < c1 ∧ c1 < 2 * b.cap % 2 ^ 32 then (if bbMax < 2 * b.cap % 2 ^ 32 then bbMax else 2 * b.cap % 2 ^ 32) else c1) = c2 ∧ c1 ≤ c2 ∧ c2 ≤ 4294967295 := by
        refine ⟨_, rfl, ?_⟩
        split
        · split <;> omega
        · omega
      obtain ⟨c2, hc2, h4, h5⟩ := hc2
      rw [hc2]
      obtain ⟨r1, r2, r3⟩ := Bb.round_spec h5
      generalize Bb.round c2 = c3 at r1 r2 r3
      by_cases he2 : c3 = b.cap
      · rw [if_neg (by simp [he2])]
        exact ⟨b, rfl, h, rfl, rfl, by omega, by omega, fun _ _ => rfl⟩
      · rw [if_pos he2]
        have hcap : c3 % 2 ^ 32 = c3 := Nat.mod_eq_of_lt (by omega)
        have hml : (b.mem.getD []).length = b.cap := by
          cases hm : b.mem with
          | none => simp [h.null hm]
          | some m => simpa using h.block m hm
        have hrl : (Bb.realloc junk b.mem c3).length = c3 := by
          unfold Bb.realloc; simp [hj]; omega
        have htk : ∀ k, k ≤ b.len → (Bb.realloc junk b.mem c3).take k = (b.mem.getD []).take k := by
          intro k hk
          unfold Bb.realloc
          rw [List.take_append_of_le_length (by simp; omega), List.take_take, Nat.min_eq_left (by omega)]
        have hwf : Bb.Wf { mem := some (Bb.realloc junk b.mem c3), len := b.len, cap := c3 } :=
          ⟨fun hc => (by cases hc), fun m hm => (by cases hm; exact hrl), by simp only; omega, r2, r3⟩
        refine ⟨{ mem := some (Bb.realloc junk b.mem c3), len := b.len, cap := c3 }, by rw [hcap], hwf, rfl, ?_, by simp only; omega, by simp only; omega, fun k hk => htk k hk⟩
        rw [hwf.content_some rfl]
        simp only
        rw [htk _ (Nat.le_refl _)]
        unfold Bb.content
        rw [h.size]
  · intro hn
    unfold Bb.reserve
    rw [if_pos (by omega)]

theorem Bb.resize_spec {junk : Nat → Bytes} (hj : ∀ n, (junk n).length = n) {b : Bb} (h : b.Wf) (n : Nat) :
    (n ≤ 4294967295 → ∃ b', b.resize junk n = some (b', none) ∧ b'.Wf ∧ b'.len = n ∧ b'.content.length = n ∧
      b'.content.take (min n b.len) = b.content.take n ∧ (n ≤ b.len → b'.content = b.content.take n)) ∧
    (4294967295 < n → b.resize junk n = some (b, some .lengthError)) := by
  obtain ⟨hr1, hr2⟩ := Bb.reserve_spec hj h n
  have hl := h.len
  have hcm := h.max
  constructor
  · intro hn
    have hmod : n % 2 ^ 32 = n := Nat.mod_eq_of_lt (by omega)
    have key : ∀ b1 : Bb, b1.Wf → n ≤ b1.cap → b.len ≤ b1.cap → (∀ k, k ≤ b.len → (b1.mem.getD []).take k = (b.mem.getD []).take k) →
        ∃ b', BbRes.andThen (some (b1, none)) (fun b => some ({ b with len := n % 2 ^ 32 }, none)) = some (b', none) ∧ b'.Wf ∧ b'.len = n ∧ b'.content.length = n ∧
        b'.content.take (min n b.len) = b.content.take n ∧ (n ≤ b.len → b'.content = b.content.take n) := by
      intro b1 hw hc _ hm
      have hw' : Bb.Wf { b1 with len := n } := ⟨hw.null, hw.block, hc, hw.max, hw.align⟩
      have hc1 : Bb.content { b1 with len := n } = (b1.mem.getD []).take n := by
        unfold Bb.content; rw [hw'.size]
      have hc2 : b.content = (b.mem.getD []).take b.len := by unfold Bb.content; rw [h.size]
      have htake : (Bb.content { b1 with len := n }).take (min n b.len) = b.content.take n := by
        rw [hc1, hc2, List.take_take, List.take_take]
        have : min (min n b.len) n = min n b.len := by omega
        rw [this, hm _ (by omega)]
      refine ⟨{ b1 with len := n }, ?_, hw', rfl, hw'.content_len, htake, ?_⟩
      · simp only [BbRes.andThen, hmod]
      · intro hle
        have h1 : min n b.len = n := by omega
        rw [h1, List.take_of_length_le (by rw [hw'.content_len]; exact Nat.le_refl _)] at htake
        exact htake
    unfold Bb.resize
    by_cases hc : b.cap < n
    · rw [if_pos hc]
      obtain ⟨b1, e1, e2, e3, e4, e5, _, e6⟩ := hr1 hn
      rw [e1]
      exact key b1 e2 e5 (by have := e2.len; omega) e6
    · rw [if_neg hc]
      exact key b h (by omega) hl (fun _ _ => rfl)
  · intro hn
    unfold Bb.resize
    rw [if_pos (by omega), hr2 hn]
    rfl

theorem Bb.put_spec {junk : Nat → Bytes} (hj : ∀ n, (junk n).length = n) {b : Bb} (h : b.Wf) (src : Bytes) (hs : 0 < src.length) :
    ∃ b' e, b.put junk src = some (b', e) ∧ b'.Wf ∧ IdealAppend b.content src b'.content e := by
  have hmax : bbMax = 4294967295 := by decide
  have hl := h.len
  have hcm := h.max
  have hcl := h.content_len
  unfold Bb.put
  by_cases ht : b.tooLong src.length = true
  · rw [if_pos ht]
    refine ⟨b, _, rfl, h, ?_⟩
    unfold Bb.tooLong at ht
    rw [decide_eq_true_iff, hmax] at ht
    unfold IdealAppend
    rw [if_neg (by omega)]
    exact ⟨rfl, rfl⟩
  · rw [if_neg ht]
    simp only
    unfold Bb.tooLong at ht
    rw [decide_eq_true_iff, hmax] at ht
    have hfit : b.len + src.length ≤ 4294967295 := by omega
    have hmod : (b.len + src.length) % 2 ^ 32 = b.len + src.length := Nat.mod_eq_of_lt (by omega)
    have key : ∀ b1 : Bb, b1.Wf → b1.len = b.len → b1.content = b.content → b.len + src.length ≤ b1.cap →
        ∃ b' e, BbRes.andThen (some (b1, none)) (fun b => do
          let mem ← b.mem
          let mem ← writeAt mem b.len src
          return ({ b with mem := some mem, len := (b.len + src.length) % 2 ^ 32 }, none)) = some (b', e) ∧ b'.Wf ∧ IdealAppend b.content src b'.content e := by
      intro b1 hw e1 e2 hc
      cases hm : b1.mem with
      | none => have := hw.null hm; omega
      | some m =>
        have hml := hw.block m hm
        have hwr : writeAt m b1.len src = some (m.take b1.len ++ src ++ m.drop (b1.len + src.length)) := writeAt_some (by omega)
        have hwt := writeAt_take hwr
        have hw' : Bb.Wf { mem := some (m.take b1.len ++ src ++ m.drop (b1.len + src.length)), len := b.len + src.length, cap := b1.cap } :=
          ⟨fun hc => (by cases hc), fun m' hm' => (by cases hm'; rw [hwt.1, hml]), hc, hw.max, hw.align⟩
        refine ⟨_, none, ?_, hw', ?_⟩
        · simp only [BbRes.andThen, hm, Option.bind_eq_bind, Option.bind_some, hwr, Option.pure_def]
          rw [e1, hmod]
        · unfold IdealAppend
          rw [if_pos (by omega)]
          refine ⟨?_, rfl⟩
          rw [hw'.content_some rfl]
          simp only
          have hwt2 := hwt.2
          rw [e1] at hwt2
          rw [e1, hwt2, ← e2, hw.content_some hm, e1]
    by_cases hc : b.cap < b.len + src.length
    · rw [if_pos hc]
      obtain ⟨b1, e1, e2, e3, e4, e5, _⟩ := (Bb.reserve_spec hj h (b.len + src.length)).1 hfit
      rw [e1]
      exact key b1 e2 e3 e4 e5
    · rw [if_neg hc]
      exact key b h rfl rfl (by omega)

theorem idealAppend_nil (s : Bytes) (h : s.length ≤ 4294967295) : IdealAppend s [] s none := by
  unfold IdealAppend; rw [if_pos (by simpa using h)]; simp

theorem Bb.append_spec {junk : Nat → Bytes} (hj : ∀ n, (junk n).length = n) {b : Bb} (h : b.Wf) (src : Option Bytes) :
    ∃ b' e, b.append junk src = some (b', e) ∧ b'.Wf ∧ IdealAppend b.content (src.getD []) b'.content e := by
  have hcm : b.content.length ≤ 4294967295 := by rw [h.content_len]; have := h.len; have := h.max; omega
  unfold Bb.append
  cases src with
  | none => exact ⟨b, none, rfl, h, idealAppend_nil _ hcm⟩
  | some src =>
    simp only [Option.getD_some]
    by_cases hs : 0 < src.length
    · rw [if_pos hs]; exact Bb.put_spec hj h src hs
    · rw [if_neg hs]
      have : src = [] := List.length_eq_zero_iff.mp (by omega)
      subst this
      exact ⟨b, none, rfl, h, idealAppend_nil _ hcm⟩

theorem Bb.appendFill_spec {junk : Nat → Bytes} (hj : ∀ n, (junk n).length = n) {b : Bb} (h : b.Wf) (n : Nat) (c : Byte) :
    ∃ b' e, b.appendFill junk n c = some (b', e) ∧ b'.Wf ∧ IdealAppend b.content (List.replicate n c) b'.content e := by
  have hcm : b.content.length ≤ 4294967295 := by rw [h.content_len]; have := h.len; have := h.max; omega
  unfold Bb.appendFill
  by_cases hs : 0 < n
  · rw [if_pos hs]; exact Bb.put_spec hj h _ (by simpa using hs)
  · rw [if_neg hs]
    have : n = 0 := by omega
    subst this
    exact ⟨b, none, rfl, h, idealAppend_nil _ hcm⟩

theorem Bb.assign_spec {junk : Nat → Bytes} (hj : ∀ n, (junk n).length = n) {b : Bb} (h : b.Wf) (src : Option Bytes) :
    ∃ b' e, b.assign junk src = some (b', e) ∧ b'.Wf ∧ IdealAppend [] (src.getD []) b'.content e := by
  obtain ⟨b1, e1, e2, e3, e4, _⟩ := (Bb.resize_spec hj h 0).1 (by omega)
  have : b1.content = [] := List.length_eq_zero_iff.mp e4
  obtain ⟨b', e, h1, h2, h3⟩ := Bb.append_spec hj e2 src
  refine ⟨b', e, ?_, h2, by rw [this] at h3; exact h3⟩
  unfold Bb.assign
  rw [e1]
  exact h1

theorem getLast_take {m : Bytes} {n : Nat} (h : n + 1 ≤ m.length) : (m.take (n + 1)).getLast? = some (m[n]'(by omega)) := by
  rw [List.getLast?_take]
  simp

theorem Bb.append2_spec {junk : Nat → Bytes} (hj : ∀ n, (junk n).length = n) {b : Bb} (h : b.Wf) (src : Option Bytes) :
    ∃ b' e, b.append2 junk src = some (b', e) ∧ b'.Wf ∧ IdealAppend (dropNul b.content) (src.getD []) b'.content e := by
  have hl := h.len
  have hcm := h.max
  unfold Bb.append2
  by_cases h0 : 0 < b.len
  · rw [if_pos h0]
    cases hm : b.mem with
    | none => have := h.null hm; omega
    | some m =>
      have hml := h.block m hm
      obtain ⟨k, hk⟩ : ∃ k, b.len = k + 1 := ⟨b.len - 1, by omega⟩
      have hr : readAt m (b.len - 1) 1 = some [m[k]'(by omega)] := by
        rw [readAt_some (by omega), hk, Nat.add_sub_cancel, List.drop_eq_getElem_cons (by omega)]
        rfl
      have hc := h.content_some hm
      rw [hk] at hc
      have hg := getLast_take (m := m) (n := k) (by omega)
      rw [← hc] at hg
      simp only [Option.bind_eq_bind, Option.bind_some, hr, List.cons.injEq, and_true]
      by_cases hz : m[k]'(by omega) = 0
      · rw [if_pos hz]
        obtain ⟨b1, e1, e2, e3, e4, _, e5⟩ := (Bb.resize_spec hj h (b.len - 1)).1 (by omega)
        rw [e1]
        have hd : dropNul b.content = b1.content := by
          unfold dropNul
          rw [hg, hz, if_pos rfl, e5 (by omega), List.dropLast_eq_take, h.content_len]
        rw [hd]
        exact Bb.append_spec hj e2 src
      · rw [if_neg hz]
        have hd : dropNul b.content = b.content := by
          unfold dropNul
          rw [hg, if_neg]
          intro hc; exact hz (Option.some.inj hc)
        rw [hd]
        exact Bb.append_spec hj h src
  · rw [if_neg h0]
    have hc : b.content = [] := List.length_eq_zero_iff.mp (by rw [h.content_len]; omega)
    have hd : dropNul b.content = b.content := by rw [hc]; rfl
    rw [hd]
    exact Bb.append_spec hj h src

theorem Bb.erase_spec {junk : Nat → Bytes} (hj : ∀ n, (junk n).length = n) {b : Bb} (h : b.Wf) (pos len : Nat) :
    ∃ b' e, b.erase junk pos len = some (b', e) ∧ b'.Wf ∧
      (if b.content.length < pos then b'.content = b.content ∧ e = some .outOfRange
       else b'.content = b.content.take pos ++ b.content.drop (pos + len) ∧ e = none) := by
  have hl := h.len
  have hcm := h.max
  have hcl := h.content_len
  unfold Bb.erase
  rw [h.size]
  by_cases h0 : b.len < pos
  · rw [if_pos h0]
    refine ⟨b, _, rfl, h, ?_⟩
    rw [if_pos (by omega)]
    exact ⟨rfl, rfl⟩
  · rw [if_neg h0]
    have cut : b.len ≤ pos + len → ∃ b' e, b.resize junk pos = some (b', e) ∧ b'.Wf ∧
        (if b.content.length < pos then b'.content = b.content ∧ e = some .outOfRange
         else b'.content = b.content.take pos ++ b.content.drop (pos + len) ∧ e = none) := by
      intro hle
      obtain ⟨b1, e1, e2, e3, e4, _, e5⟩ := (Bb.resize_spec hj h pos).1 (by omega)
      refine ⟨b1, none, e1, e2, ?_⟩
      rw [if_neg (by omega), List.drop_of_length_le (by omega), List.append_nil]
      exact ⟨e5 (by omega), rfl⟩
    by_cases h1 : b.len ≤ len
    · rw [if_pos h1]; exact cut (by omega)
    · rw [if_neg h1]
      simp only
      by_cases h2 : b.len - len ≤ pos
      · rw [if_pos h2]; exact cut (by omega)
      · rw [if_neg h2]
        cases hm : b.mem with
        | none => have := h.null hm; omega
        | some m =>
          have hml := h.block m hm
          have hr : readAt m (pos + len) (b.len - pos - len) = some ((m.drop (pos + len)).take (b.len - pos - len)) := readAt_some (by omega)
          have htl : ((m.drop (pos + len)).take (b.len - pos - len)).length = b.len - pos - len := by simp; omega
          have hw : writeAt m pos ((m.drop (pos + len)).take (b.len - pos - len)) =
              some (m.take pos ++ (m.drop (pos + len)).take (b.len - pos - len) ++ m.drop (pos + ((m.drop (pos + len)).take (b.len - pos - len)).length)) := writeAt_some (by omega)
          have hwt := writeAt_take hw
          generalize m.take pos ++ (m.drop (pos + len)).take (b.len - pos - len) ++ m.drop (pos + ((m.drop (pos + len)).take (b.len - pos - len)).length) = m' at hw hwt
          rw [htl] at hwt
          simp only [Option.bind_eq_bind, Option.bind_some, hr, hw]
          have hw1 : Bb.Wf { b with mem := some m' } := ⟨fun hc => (by cases hc), fun x hx => (by cases hx; rw [hwt.1, hml]), hl, hcm, h.align⟩
          obtain ⟨b1, e1, e2, e3, e4, _, e5⟩ := (Bb.resize_spec hj hw1 (b.len - len)).1 (by omega)
          refine ⟨b1, none, e1, e2, ?_⟩
          rw [if_neg (by omega)]
          refine ⟨?_, rfl⟩
          rw [e5 (by simp only; omega), hw1.content_some rfl, h.content_some hm]
          simp only
          rw [List.take_take, Nat.min_eq_left (by omega)]
          have : b.len - len = pos + (b.len - pos - len) := by omega
          rw [this, hwt.2, List.take_take, Nat.min_eq_left (by omega), List.drop_take]
          congr 2
          omega

theorem Bb.arg_getD {b : Bb} : b.arg.getD [] = b.content := by
  unfold Bb.arg
  cases hm : b.mem with
  | none => simp [Bb.content, hm]
  | some m => simp

theorem Bb.step_spec {junk : Nat → Bytes} (hj : ∀ n, (junk n).length = n) (op : BbOp) {x y : Bb} (hx : x.Wf) (hy : y.Wf) :
    ∃ x' y' e, Bb.step junk op x y = some (x', y', e) ∧ x'.Wf ∧ y'.Wf ∧ IdealOp op x.content y.content x'.content y'.content e := by
  have hxl := hx.len
  have hxm := hx.max
  have hyl : y.content.length ≤ 4294967295 := by rw [hy.content_len]; have := hy.len; have := hy.max; omega
  cases op with
  | appendFill n c =>
    obtain ⟨b, e, h1, h2, h3⟩ := Bb.appendFill_spec hj hx n c
    exact ⟨b, y, e, by simp [Bb.step, h1], h2, hy, rfl, h3⟩
  | append s =>
    obtain ⟨b, e, h1, h2, h3⟩ := Bb.append_spec hj hx s
    exact ⟨b, y, e, by simp [Bb.step, h1], h2, hy, rfl, h3⟩
  | append2 s =>
    obtain ⟨b, e, h1, h2, h3⟩ := Bb.append2_spec hj hx s
    exact ⟨b, y, e, by simp [Bb.step, h1], h2, hy, rfl, h3⟩
  | append2Str s =>
    obtain ⟨b, e, h1, h2, h3⟩ := Bb.append_spec hj hx (some (s ++ [0]))
    exact ⟨b, y, e, by simp [Bb.step, Bb.append2Str, h1], h2, hy, rfl, h3⟩
  | erase p n =>
    obtain ⟨b, e, h1, h2, h3⟩ := Bb.erase_spec hj hx p n
    exact ⟨b, y, e, by simp [Bb.step, h1], h2, hy, rfl, h3⟩
  | resize n =>
    obtain ⟨r1, r2⟩ := Bb.resize_spec hj hx n
    by_cases hn : n ≤ 4294967295
    · obtain ⟨b, h1, h2, h3, h4, h5, _⟩ := r1 hn
      refine ⟨b, y, none, by simp [Bb.step, h1], h2, hy, rfl, ?_⟩
      rw [if_pos hn, hx.content_len]
      exact ⟨h4, h5, rfl⟩
    · refine ⟨x, y, some .lengthError, by simp [Bb.step, r2 (by omega)], hx, hy, rfl, ?_⟩
      rw [if_neg hn]; exact ⟨rfl, rfl⟩
  | assign s =>
    obtain ⟨b, e, h1, h2, h3⟩ := Bb.assign_spec hj hx s
    exact ⟨b, y, e, by simp [Bb.step, h1], h2, hy, rfl, h3⟩
  | shrink =>
    obtain ⟨b, h1, h2, _, h3, _⟩ := (Bb.reserve_spec hj hx 0).1 (by omega)
    exact ⟨b, y, none, by simp [Bb.step, h1], h2, hy, rfl, h3, rfl⟩
  | reserve n =>
    obtain ⟨r1, r2⟩ := Bb.reserve_spec hj hx n
    by_cases hn : n ≤ 4294967295
    · obtain ⟨b, h1, h2, _, h3, _⟩ := r1 hn
      exact ⟨b, y, none, by simp [Bb.step, h1], h2, hy, rfl, h3, by rw [if_pos hn]⟩
    · exact ⟨x, y, some .lengthError, by simp [Bb.step, r2 (by omega)], hx, hy, rfl, rfl, by rw [if_neg hn]⟩
  | clear =>
    obtain ⟨b, h1, h2, _, h3, _⟩ := (Bb.resize_spec hj hx 0).1 (by omega)
    exact ⟨b, y, none, by simp [Bb.step, h1], h2, hy, rfl, List.length_eq_zero_iff.mp h3, rfl⟩
  | clean => exact ⟨Bb.empty, y, none, rfl, Bb.empty_wf, hy, rfl, rfl, rfl⟩
  | swap => exact ⟨y, x, none, rfl, hy, hx, rfl, rfl, rfl⟩
  | copyFrom =>
    obtain ⟨b, e, h1, h2, h3⟩ := Bb.assign_spec hj hx y.arg
    rw [Bb.arg_getD] at h3
    unfold IdealAppend at h3
    rw [if_pos (by simpa using hyl)] at h3
    exact ⟨b, y, e, by simp [Bb.step, h1], h2, hy, rfl, by simpa using h3.1, h3.2⟩
  | appendFrom =>
    obtain ⟨b, e, h1, h2, h3⟩ := Bb.append_spec hj hx y.arg
    rw [Bb.arg_getD] at h3
    exact ⟨b, y, e, by simp [Bb.step, h1], h2, hy, rfl, h3⟩

theorem Bb.run_spec {junk : Nat → Bytes} (hj : ∀ n, (junk n).length = n) : ∀ (ops : List BbOp) {x y : Bb}, x.Wf → y.Wf →
    ∃ x' y' es, Bb.run junk ops x y = some (x', y', es) ∧ x'.Wf ∧ y'.Wf ∧ IdealRun ops x.content y.content x'.content y'.content es := by
  intro ops
  induction ops with
  | nil => intro x y hx hy; exact ⟨x, y, [], rfl, hx, hy, IdealRun.nil _ _⟩
  | cons op ops ih =>
    intro x y hx hy
    obtain ⟨x1, y1, e, h1, h2, h3, h4⟩ := Bb.step_spec hj op hx hy
    obtain ⟨x2, y2, es, k1, k2, k3, k4⟩ := ih h2 h3
    exact ⟨x2, y2, e :: es, by simp [Bb.run, h1, k1], k2, k3, IdealRun.cons _ _ _ _ _ _ _ _ _ _ h4 k4⟩

end StAsio
