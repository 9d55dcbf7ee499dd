import Verif.Spec.Encoding
import Verif.Props.PlaceText

/-!
# Facts about UTF-8, one-byte encodings and where the characters of results come from
-/

namespace Cjk
open Py

/-! ### UTF-8 -/

theorem isScalar_iff (c : Nat) : isScalar c = true ↔ c < 0x110000 ∧ ¬ (0xd800 ≤ c ∧ c ≤ 0xdfff) := by
  unfold isScalar
  simp only [Bool.and_eq_true, Bool.not_eq_true', Bool.and_eq_false_iff, decide_eq_true_eq, decide_eq_false_iff_not]
  omega

theorem utf8Go_start (b : Nat) (rest : List Nat) : utf8Go 0 0 0 (b :: rest) =
    if b < 0x80 then (utf8Go 0 0 0 rest).map (b :: ·)
    else if b < 0xc0 then none
    else if b < 0xe0 then utf8Go 1 (b - 0xc0) 0x80 rest
    else if b < 0xf0 then utf8Go 2 (b - 0xe0) 0x800 rest
    else if b < 0xf8 then utf8Go 3 (b - 0xf0) 0x10000 rest
    else none := rfl

theorem utf8Go_last (acc low b : Nat) (rest : List Nat) : utf8Go 1 acc low (b :: rest) =
    if 0x80 ≤ b ∧ b < 0xc0 then
      if low ≤ acc * 64 + (b - 0x80) ∧ isScalar (acc * 64 + (b - 0x80)) = true then (utf8Go 0 0 0 rest).map ((acc * 64 + (b - 0x80)) :: ·) else none
    else none := rfl

theorem utf8Go_more (n acc low b : Nat) (rest : List Nat) : utf8Go (n + 2) acc low (b :: rest) =
    if 0x80 ≤ b ∧ b < 0xc0 then utf8Go (n + 1) (acc * 64 + (b - 0x80)) low rest else none := rfl

theorem utf8Go_char (c : Nat) (hc : isScalar c = true) (rest : List Nat) :
    utf8Go 0 0 0 (utf8Char c ++ rest) = (utf8Go 0 0 0 rest).map (c :: ·) := by
  have hs := (isScalar_iff c).1 hc
  unfold utf8Char
  split
  · rename_i h
    simp only [List.singleton_append, utf8Go_start, if_pos h]
  · split
    · rename_i h1 h2
      simp only [List.cons_append, List.nil_append, utf8Go_start]
      rw [if_neg (by omega), if_neg (by omega), if_pos (by omega), utf8Go_last, if_pos (by omega)]
      have e : (0xc0 + c / 64 - 0xc0) * 64 + (0x80 + c % 64 - 0x80) = c := by omega
      rw [e, if_pos ⟨by omega, hc⟩]
    · split
      · rename_i h1 h2 h3
        simp only [List.cons_append, List.nil_append, utf8Go_start]
        rw [if_neg (by omega), if_neg (by omega), if_neg (by omega), if_pos (by omega), utf8Go_more, if_pos (by omega), utf8Go_last, if_pos (by omega)]
        have e : ((0xe0 + c / 4096 - 0xe0) * 64 + (0x80 + c / 64 % 64 - 0x80)) * 64 + (0x80 + c % 64 - 0x80) = c := by omega
        rw [e, if_pos ⟨by omega, hc⟩]
      · rename_i h1 h2 h3
        simp only [List.cons_append, List.nil_append, utf8Go_start]
        rw [if_neg (by omega), if_neg (by omega), if_neg (by omega), if_neg (by omega), if_pos (by omega), utf8Go_more, if_pos (by omega), utf8Go_more,
          if_pos (by omega), utf8Go_last, if_pos (by omega)]
        have e : (((0xf0 + c / 262144 - 0xf0) * 64 + (0x80 + c / 4096 % 64 - 0x80)) * 64 + (0x80 + c / 64 % 64 - 0x80)) * 64 + (0x80 + c % 64 - 0x80) = c := by
          omega
        rw [e, if_pos ⟨by omega, hc⟩]

theorem utf8Go_utf8 (s : Str) (hs : ∀ c ∈ s, isScalar c = true) : utf8Go 0 0 0 (utf8 s) = some s := by
  induction s with
  | nil => rfl
  | cons c s ih =>
    unfold utf8 at ih ⊢
    rw [List.flatMap_cons, utf8Go_char c (hs c (by simp)), ih (fun d hd => hs d (by simp [hd]))]
    rfl

theorem utf8Go_sound : ∀ (n : Nat) (b : List Nat), b.length ≤ n → ∀ s, utf8Go 0 0 0 b = some s → (∀ c ∈ s, isScalar c = true) ∧ b = utf8 s := by
  intro n
  induction n with
  | zero =>
    intro b hb s h
    cases b with
    | nil =>
      simp only [utf8Go, Option.some.injEq] at h
      subst h
      exact ⟨fun c hc => (by cases hc), rfl⟩
    | cons _ _ => simp at hb
  | succ n ih =>
    intro b hb s h
    -- one character and the rest
    have step : ∀ (c : Nat) (front rest : List Nat), isScalar c = true → front = utf8Char c → b = front ++ rest → rest.length ≤ n →
        (utf8Go 0 0 0 rest).map (c :: ·) = some s → (∀ c ∈ s, isScalar c = true) ∧ b = utf8 s := by
      intro c front rest hc hf hbe hlen hm
      obtain ⟨t, ht, rfl⟩ := Option.map_eq_some_iff.1 hm
      obtain ⟨h1, h2⟩ := ih rest hlen t ht
      refine ⟨fun d hd => ?_, ?_⟩
      · rcases List.mem_cons.1 hd with e | e
        · rw [e]; exact hc
        · exact h1 d e
      · rw [hbe, hf, h2]
        unfold utf8
        rw [List.flatMap_cons]
    cases b with
    | nil =>
      simp only [utf8Go, Option.some.injEq] at h
      subst h
      exact ⟨fun c hc => (by cases hc), rfl⟩
    | cons b0 r0 =>
      simp only [List.length_cons] at hb
      rw [utf8Go_start] at h
      by_cases g0 : b0 < 0x80
      · rw [if_pos g0] at h
        refine step b0 [b0] r0 ((isScalar_iff _).2 (by omega)) ?_ rfl (by omega) h
        unfold utf8Char
        rw [if_pos g0]
      · rw [if_neg g0] at h
        by_cases g1 : b0 < 0xc0
        · rw [if_pos g1] at h; cases h
        · rw [if_neg g1] at h
          by_cases g2 : b0 < 0xe0
          · rw [if_pos g2] at h
            cases r0 with
            | nil => cases h
            | cons b1 r1 =>
              simp only [List.length_cons] at hb
              rw [utf8Go_last] at h
              split at h
              · rename_i k1
                split at h
                · rename_i k
                  refine step _ [b0, b1] r1 k.2 ?_ rfl (by omega) h
                  have := (isScalar_iff _).1 k.2
                  unfold utf8Char
                  rw [if_neg (by omega), if_pos (by omega)]
                  simp only [List.cons.injEq, and_true]
                  omega
                · cases h
              · cases h
          · rw [if_neg g2] at h
            by_cases g3 : b0 < 0xf0
            · rw [if_pos g3] at h
              cases r0 with
              | nil => cases h
              | cons b1 r1 =>
                rw [utf8Go_more] at h
                split at h
                · rename_i k1
                  cases r1 with
                  | nil => cases h
                  | cons b2 r2 =>
                    simp only [List.length_cons] at hb
                    rw [utf8Go_last] at h
                    split at h
                    · rename_i k2
                      split at h
                      · rename_i k
                        refine step _ [b0, b1, b2] r2 k.2 ?_ rfl (by omega) h
                        have := (isScalar_iff _).1 k.2
                        unfold utf8Char
                        rw [if_neg (by omega), if_neg (by omega), if_pos (by omega)]
                        simp only [List.cons.injEq, and_true]
                        omega
                      · cases h
                    · cases h
                · cases h
            · rw [if_neg g3] at h
              split at h
              · rename_i g4
                cases r0 with
                | nil => cases h
                | cons b1 r1 =>
                  rw [utf8Go_more] at h
                  split at h
                  · rename_i k1
                    cases r1 with
                    | nil => cases h
                    | cons b2 r2 =>
                      rw [utf8Go_more] at h
                      split at h
                      · rename_i k2
                        cases r2 with
                        | nil => cases h
                        | cons b3 r3 =>
                          simp only [List.length_cons] at hb
                          rw [utf8Go_last] at h
                          split at h
                          · rename_i k3
                            split at h
                            · rename_i k
                              refine step _ [b0, b1, b2, b3] r3 k.2 ?_ rfl (by omega) h
                              have := (isScalar_iff _).1 k.2
                              unfold utf8Char
                              rw [if_neg (by omega), if_neg (by omega), if_neg (by omega)]
                              simp only [List.cons.injEq, and_true]
                              omega
                            · cases h
                          · cases h
                      · cases h
                  · cases h
              · cases h

theorem utf8_decode_iff (b : List Nat) (s : Str) : utf8Codec.decode b = .ok s ↔ utf8Codec.encode s = .ok b := by
  simp only [utf8Codec]
  constructor
  · intro h
    cases hd : utf8Go 0 0 0 b with
    | none => rw [hd] at h; cases h
    | some t =>
      rw [hd] at h
      cases h
      obtain ⟨h1, h2⟩ := utf8Go_sound _ b (Nat.le_refl _) _ hd
      rw [if_pos (by simpa [List.all_eq_true] using h1), h2]
  · intro h
    split at h
    · rename_i hs
      cases h
      rw [utf8Go_utf8 s (by simpa [List.all_eq_true] using hs)]
    · cases h

/-! ### One byte for each character -/

theorem mapAll_eq_ok {f : Nat → Option Nat} : ∀ {l s : List Nat}, mapAll f l = .ok s ↔ l.map f = s.map some := by
  intro l
  induction l with
  | nil => intro s; cases s <;> simp [mapAll]
  | cons b l ih =>
    intro s
    simp only [mapAll, List.map_cons]
    cases hf : f b with
    | none => cases s <;> simp
    | some c =>
      cases hm : mapAll f l with
      | error e =>
        simp only [reduceCtorEq, false_iff]
        cases s with
        | nil => simp
        | cons d s =>
          simp only [List.map_cons, List.cons.injEq, not_and]
          intro _ h
          have := ih.2 h
          rw [hm] at this
          cases this
      | ok t =>
        have := (ih (s := t)).1 hm
        cases s with
        | nil => simp
        | cons d s =>
          simp only [Except.ok.injEq, List.cons.injEq, List.map_cons, Option.some.injEq, this]
          constructor
          · rintro ⟨h1, h2⟩; exact ⟨h1, by rw [h2]⟩
          · rintro ⟨h1, h2⟩
            exact ⟨h1, (List.map_inj_right (fun a b h => Option.some.inj h)).1 h2⟩

theorem mapAll_length {f : Nat → Option Nat} {l s : List Nat} (h : mapAll f l = .ok s) : s.length = l.length := by
  have := congrArg List.length (mapAll_eq_ok.1 h)
  simpa using this.symm

theorem mapAll_mem {f : Nat → Option Nat} {l s : List Nat} (h : mapAll f l = .ok s) {c : Nat} (hc : c ∈ s) : ∃ b ∈ l, f b = some c := by
  have h1 : some c ∈ l.map f := by
    rw [mapAll_eq_ok.1 h]
    exact List.mem_map.2 ⟨c, hc, rfl⟩
  obtain ⟨b, hb, e⟩ := List.mem_map.1 h1
  exact ⟨b, hb, e⟩

theorem utf8Char_length (c : Nat) : 1 ≤ (utf8Char c).length ∧ ((utf8Char c).length = 1 → c < 0x80) := by
  unfold utf8Char
  split
  · exact ⟨by simp, fun _ => by assumption⟩
  · split
    · simp
    · split <;> simp

theorem utf8_length (s : Str) : s.length ≤ (utf8 s).length ∧ ((utf8 s).length = s.length → ∀ c ∈ s, c < 0x80) := by
  induction s with
  | nil => exact ⟨Nat.le_refl _, fun _ c hc => by cases hc⟩
  | cons c s ih =>
    have h1 := utf8Char_length c
    have e : (utf8 (c :: s)).length = (utf8Char c).length + (utf8 s).length := by
      unfold utf8
      rw [List.flatMap_cons, List.length_append]
    rw [e, List.length_cons]
    refine ⟨by omega, fun h d hd => ?_⟩
    rcases List.mem_cons.1 hd with rfl | hd
    · exact h1.2 (by omega)
    · exact ih.2 (by omega) d hd

theorem utf8_asciiText (s : Str) (h : ∀ c ∈ s, c < 0x80) : utf8 s = s := by
  induction s with
  | nil => rfl
  | cons c s ih =>
    unfold utf8 at ih ⊢
    rw [List.flatMap_cons, ih (fun d hd => h d (by simp [hd]))]
    unfold utf8Char
    rw [if_pos (h c (by simp))]
    rfl

/-! ### Where characters come from -/

theorem mem_fileLinesAux (t : Str) : ∀ acc l c, l ∈ fileLinesAux acc t → c ∈ l → c ∈ acc ∨ c ∈ t ∨ c = 0x0a := by
  intro acc
  fun_induction fileLinesAux acc t with
  | case1 => intro l c hl; cases hl
  | case2 acc h =>
    intro l c hl hc
    rw [List.mem_singleton.1 hl] at hc
    exact .inl hc
  | case3 acc rest ih =>
    intro l c hl hc
    rcases List.mem_cons.1 hl with e | hl
    · rw [e] at hc
      rcases List.mem_append.1 hc with h | h
      · exact .inl h
      · exact .inr (.inr (List.mem_singleton.1 h))
    · rcases ih l c hl hc with h | h | h
      · cases h
      · exact .inr (.inl (by simp [h]))
      · exact .inr (.inr h)
  | case4 acc c' rest _ h0 ih =>
    intro l c hl hc
    rcases List.mem_cons.1 hl with e | hl
    · rw [e] at hc
      rcases List.mem_append.1 hc with h | h
      · exact .inl h
      · exact .inr (.inr (List.mem_singleton.1 h))
    · rcases ih l c hl hc with h | h | h
      · cases h
      · exact .inr (.inl (by simp [h]))
      · exact .inr (.inr h)
  | case5 acc c' rest _ h0 ih =>
    intro l c hl hc
    rcases ih l c hl hc with h | h | h
    · rcases List.mem_append.1 h with h | h
      · exact .inl h
      · exact .inr (.inl (by simp [List.mem_singleton.1 h]))
    · exact .inr (.inl (by simp [h]))
    · exact .inr (.inr h)

theorem mem_fileLines {t l : Str} {c : Nat} (hl : l ∈ fileLines t) (hc : c ∈ l) : c ∈ t ∨ c = 0x0a := by
  rcases mem_fileLinesAux t [] l c hl hc with h | h
  · cases h
  · exact h

/-- All characters of the reader satisfy `P`. -/
def CsvAll (P : Nat → Prop) (r : Csv) : Prop := (∀ c ∈ r.field, P c) ∧ ∀ f ∈ r.fields, ∀ c ∈ f, P c

theorem CsvAll.save {P : Nat → Prop} {r : Csv} (h : CsvAll P r) (st : CsvState) : CsvAll P (r.save st) := by
  refine ⟨fun c hc => (by cases hc), fun f hf c hc => ?_⟩
  rcases List.mem_append.1 hf with e | e
  · exact h.2 f e c hc
  · rw [List.mem_singleton.1 e] at hc
    exact h.1 c hc

theorem CsvAll.add {P : Nat → Prop} {r r' : Csv} (h : CsvAll P r) {lim c : Nat} (hc : P c) {st : CsvState} (he : r.add lim c st = .ok r') : CsvAll P r' := by
  unfold Csv.add at he
  split at he
  · cases he
  · cases he
    refine ⟨fun d hd => ?_, h.2⟩
    rcases List.mem_append.1 hd with e | e
    · exact h.1 d e
    · rw [List.mem_singleton.1 e]; exact hc

theorem CsvAll.state {P : Nat → Prop} {r : Csv} (h : CsvAll P r) (st : CsvState) : CsvAll P { r with st := st } := h

theorem CsvAll.startField {P : Nat → Prop} {r r' : Csv} (h : CsvAll P r) {delim lim c : Nat} (hc : P c)
    (he : r.startFieldChar delim lim c = .ok r') : CsvAll P r' := by
  unfold Csv.startFieldChar at he
  split at he
  · cases he; exact h.save _
  · split at he
    · cases he; exact h.state _
    · split at he
      · cases he; exact h.save _
      · exact h.add hc he

theorem CsvAll.char {P : Nat → Prop} {r r' : Csv} (h : CsvAll P r) {delim lim c : Nat} (hc : P c) (he : r.char delim lim c = .ok r') : CsvAll P r' := by
  unfold Csv.char at he
  cases hst : r.st <;> rw [hst] at he <;> simp only at he
  · split at he
    · cases he; exact h.state _
    · exact h.startField hc he
  · exact h.startField hc he
  · split at he
    · cases he; exact h.save _
    · split at he
      · cases he; exact h.save _
      · exact h.add hc he
  · split at he
    · cases he; exact h.state _
    · exact h.add hc he
  · split at he
    · exact h.add hc he
    · split at he
      · cases he; exact h.save _
      · split at he
        · cases he; exact h.save _
        · exact h.add hc he
  · split at he
    · cases he; exact h
    · cases he

theorem CsvAll.endLine {P : Nat → Prop} {r : Csv} (h : CsvAll P r) : CsvAll P r.endLine := by
  unfold Csv.endLine
  cases r.st <;> simp only
  · exact h
  · exact h.save _
  · exact h.save _
  · exact h
  · exact h.save _
  · exact h.state _

theorem CsvAll.line {P : Nat → Prop} {delim lim : Nat} : ∀ (l : Str) {r r' : Csv}, CsvAll P r → (∀ c ∈ l, P c) → r.line delim lim l = .ok r' → CsvAll P r' := by
  intro l
  induction l with
  | nil => intro r r' h _ he; cases he; exact h.endLine
  | cons c l ih =>
    intro r r' h hl he
    unfold Csv.line at he
    split at he
    · cases he
    · cases hc : r.char delim lim c with
      | error e => rw [hc] at he; cases he
      | ok r1 =>
        rw [hc] at he
        exact ih (h.char (hl c (by simp)) hc) (fun d hd => hl d (by simp [hd])) he

theorem csvRows_all {P : Nat → Prop} {delim lim : Nat} : ∀ (ls : List Str) (r : Csv), CsvAll P r → (∀ l ∈ ls, ∀ c ∈ l, P c) →
    ∀ row ∈ (csvRows delim lim r ls).1, ∀ f ∈ row, ∀ c ∈ f, P c := by
  intro ls
  induction ls with
  | nil =>
    intro r h _ row hrow
    unfold csvRows at hrow
    split at hrow
    · rw [List.mem_singleton.1 hrow]
      exact (h.save .startRecord).2
    · cases hrow
  | cons l ls ih =>
    intro r h hl row hrow
    unfold csvRows at hrow
    cases he : r.line delim lim l with
    | error e => rw [he] at hrow; cases hrow
    | ok r' =>
      rw [he] at hrow
      have h' := h.line l (hl l (by simp)) he
      simp only at hrow
      split at hrow
      · rcases List.mem_cons.1 hrow with e | e
        · rw [e]; exact h'.2
        · exact ih Csv.init ⟨fun c hc => (by cases hc), fun f hf => (by cases hf)⟩ (fun l hl' => hl l (by simp [hl'])) row e
      · exact ih r' h' (fun l hl' => hl l (by simp [hl'])) row hrow

/-! ### One-byte encodings with ASCII -/

theorem oneByte_small {T : ByteTable} (h : Spec.OneByte T) {b c : Nat} (hb : T.toChr b = some c) (hc : c < 0x80) : b = c := by
  have h1 := (h.inverse b c).2 hb
  have h2 := (h.inverse c c).2 (h.ascii c hc)
  rw [h1] at h2
  exact Option.some.inj h2

theorem oneByte_lossless {T : ByteTable} (h : Spec.OneByte T) : Spec.Lossless T.codec := by
  intro s b hb
  have h1 := mapAll_eq_ok.1 hb
  refine mapAll_eq_ok.2 ?_
  have aux : ∀ (s b : List Nat), s.map T.toByte = b.map some → b.map T.toChr = s.map some := by
    intro s
    induction s with
    | nil => intro b hb; cases b with
      | nil => rfl
      | cons _ _ => cases hb
    | cons c s ih =>
      intro b hb
      cases b with
      | nil => cases hb
      | cons x b =>
        simp only [List.map_cons, List.cons.injEq] at hb ⊢
        exact ⟨(h.inverse x c).1 hb.1, ih b hb.2⟩
  exact aux s b h1

theorem oneByte_encode {T : ByteTable} (h : Spec.OneByte T) (s : Str) : (∃ b, T.codec.encode s = .ok b) ↔ ∀ c ∈ s, Spec.HasByte T c := by
  constructor
  · rintro ⟨b, hb⟩ c hc
    have := mapAll_eq_ok.1 (oneByte_lossless h s b hb)
    have h1 : some c ∈ b.map T.toChr := by rw [this]; exact List.mem_map.2 ⟨c, hc, rfl⟩
    obtain ⟨x, _, hx⟩ := List.mem_map.1 h1
    exact ⟨x, hx⟩
  · intro hs
    induction s with
    | nil => exact ⟨[], rfl⟩
    | cons c s ih =>
      obtain ⟨b, hb⟩ := ih (fun d hd => hs d (by simp [hd]))
      obtain ⟨x, hx⟩ := hs c (by simp)
      refine ⟨x :: b, ?_⟩
      have hb' : mapAll T.toByte s = .ok b := hb
      simp only [ByteTable.codec, mapAll, (h.inverse x c).2 hx, hb']

theorem mapAll_error {f : Nat → Option Nat} {l : List Nat} {e : PyErr} (h : mapAll f l = .error e) : e = .valueError := by
  cases l with
  | nil => cases h
  | cons b l =>
    unfold mapAll at h
    split at h
    · cases h
    · cases h; rfl

theorem mapAll_ascii {T : ByteTable} (h : Spec.OneByte T) (s : Str) (hs : ∀ c ∈ s, c < 0x80) : T.codec.decode s = .ok s := by
  refine mapAll_eq_ok.2 (List.map_congr_left ?_)
  intro c hc
  exact h.ascii c (hs c hc)

theorem utf8Char_lowByte {c b : Nat} (hb : b ∈ utf8Char c) (hs : b < 0x80) : b = c := by
  unfold utf8Char at hb
  split at hb
  · exact List.mem_singleton.1 hb
  · split at hb
    · simp only [List.mem_cons, List.not_mem_nil, or_false] at hb; omega
    · split at hb <;> simp only [List.mem_cons, List.not_mem_nil, or_false] at hb <;> omega

theorem utf8_lowByte {s : Str} {b : Nat} (hb : b ∈ utf8 s) (hs : b < 0x80) : b ∈ s := by
  unfold utf8 at hb
  obtain ⟨c, hc, h⟩ := List.mem_flatMap.1 hb
  rw [utf8Char_lowByte h hs]
  exact hc

/-! ### The details of places come from the lines -/

theorem mem_splitWsAux {s : Str} : ∀ {cur w : Str} {c : Nat}, w ∈ splitWsAux cur s → c ∈ w → c ∈ cur ∨ c ∈ s := by
  induction s with
  | nil =>
    intro cur w c hw hc
    unfold splitWsAux at hw
    split at hw
    · cases hw
    · rw [List.mem_singleton.1 hw] at hc; exact .inl (List.mem_reverse.1 hc)
  | cons x s ih =>
    intro cur w c hw hc
    unfold splitWsAux at hw
    split at hw
    · split at hw
      · rcases ih hw hc with h | h
        · cases h
        · exact .inr (by simp [h])
      · rcases List.mem_cons.1 hw with e | hw
        · rw [e] at hc; exact .inl (List.mem_reverse.1 hc)
        · rcases ih hw hc with h | h
          · cases h
          · exact .inr (by simp [h])
    · rcases ih hw hc with h | h
      · rcases List.mem_cons.1 h with h | h
        · exact .inr (by simp [h])
        · exact .inl h
      · exact .inr (by simp [h])

theorem mem_splitWs {s w : Str} {c : Nat} (hw : w ∈ splitWs s) (hc : c ∈ w) : c ∈ s := by
  rcases mem_splitWsAux (cur := []) hw hc with h | h
  · cases h
  · exact h

theorem mem_rstrip {s : Str} {c : Nat} (h : c ∈ rstrip s) : c ∈ s := by
  unfold rstrip at h
  rw [List.mem_reverse] at h
  have := (List.dropWhile_sublist _).subset h
  rwa [List.mem_reverse] at this

theorem placeFromLine_chars {line : Str} {d : Int} {label : Str} {reading : Option Str} {aliases : Option (List Str)}
    (h : placeFromLine line = .ok (d, label, reading, aliases)) {c : Nat} (hc : c ∈ label ∨ c ∈ reading.getD []) : c ∈ line := by
  have key : label ∈ splitWs (rstrip line) ∧ ∃ x ∈ splitWs (rstrip line), reading = readReading x := by
    unfold placeFromLine at h
    split at h
    · rename_i a b x e
      obtain ⟨_, _, h⟩ := bind_eq_ok.1 h
      obtain ⟨_, _, h⟩ := bind_eq_ok.1 h
      simp only [Except.ok.injEq, Prod.mk.injEq] at h
      rw [e, ← h.2.1, ← h.2.2.1]
      exact ⟨by simp, x, by simp, rfl⟩
    · rename_i a b x y e
      obtain ⟨_, _, h⟩ := bind_eq_ok.1 h
      obtain ⟨_, _, h⟩ := bind_eq_ok.1 h
      simp only [Except.ok.injEq, Prod.mk.injEq] at h
      rw [e, ← h.2.1, ← h.2.2.1]
      exact ⟨by simp, x, by simp, rfl⟩
    · cases h
  obtain ⟨h1, x, h2, h3⟩ := key
  rcases hc with hc | hc
  · exact mem_rstrip (mem_splitWs h1 hc)
  · refine mem_rstrip (mem_splitWs h2 ?_)
    rw [h3] at hc
    unfold readReading at hc
    split at hc
    · cases hc
    · exact hc

/-- All characters of labels and readings satisfy `P`. -/
def NodeChars (P : Nat → Prop) (st : PStore) : Prop := ∀ n ∈ st, ∀ c, c ∈ n.label ∨ c ∈ n.reading.getD [] → P c

theorem NodeChars.modify {P : Nat → Prop} {st : PStore} (h : NodeChars P st) (i : Nat) (f : Dict Str Nat → Dict Str Nat) :
    NodeChars P (st.modify i (fun n => { n with kids := f n.kids })) := by
  intro n hn c hc
  obtain ⟨j, hj⟩ := List.mem_iff_getElem?.1 hn
  rw [List.getElem?_modify] at hj
  cases hs : st[j]? with
  | none => rw [hs] at hj; cases hj
  | some m =>
    rw [hs] at hj
    have hm := List.mem_iff_getElem?.2 ⟨j, hs⟩
    split at hj
    · simp only [Option.map_eq_map, Option.map_some, Option.some.injEq] at hj
      subst hj
      exact h m hm c hc
    · simp only [Option.map_eq_map, Option.map_some, Option.some.injEq, id_eq] at hj
      subst hj
      exact h m hm c hc

theorem NodeChars.step {P : Nat → Prop} {st st' : LoadState} {line : Str} (h : NodeChars P st.store) (hl : ∀ c ∈ line, P c)
    (hs : loadStep st line = .ok st') : NodeChars P st'.store := by
  unfold loadStep at hs
  obtain ⟨⟨d, lb, rd, al⟩, e1, hs⟩ := bind_eq_ok.1 hs
  simp only at hs
  obtain ⟨path, e2, hs⟩ := bind_eq_ok.1 hs
  obtain ⟨store', e3, hs⟩ := bind_eq_ok.1 hs
  cases hs
  simp only
  unfold storeAppend at e3
  split at e3
  · cases e3
  · cases e3
    refine NodeChars.modify ?_ _ (fun k => Dict.set k lb st.store.length)
    intro n hn c hc
    rcases List.mem_append.1 hn with e | e
    · exact h n e c hc
    · rw [List.mem_singleton.1 e] at hc
      exact hl c (placeFromLine_chars e1 hc)

theorem NodeChars.loop {P : Nat → Prop} (lines : List Str) : ∀ {st st' : LoadState}, NodeChars P st.store → (∀ l ∈ lines, ∀ c ∈ l, P c) →
    loadLoop st lines = .ok st' → NodeChars P st'.store := by
  induction lines with
  | nil => intro st st' h _ hs; cases hs; exact h
  | cons l ls ih =>
    intro st st' h hl hs
    simp only [loadLoop] at hs
    obtain ⟨st1, e1, e2⟩ := bind_eq_ok.1 hs
    exact ih (h.step (hl l (by simp)) e1) (fun l' hl' => hl l' (by simp [hl'])) e2

theorem nodeChars_file {P : Nat → Prop} {lines : List Str} {st : PStore} (hl : ∀ l ∈ lines, ∀ c ∈ l, P c) (h : placeFromFile lines = .ok st) :
    NodeChars P st := by
  unfold placeFromFile at h
  split at h
  · cases h
  · rename_i l ls
    obtain ⟨⟨d, lb, rd, al⟩, e0, h⟩ := bind_eq_ok.1 h
    simp only at h
    split at h
    · cases h
    · cases hl' : loadLoop ⟨[⟨lb, rd, al, []⟩], [0], 0, 0⟩ ls with
      | error e => rw [hl'] at h; cases h
      | ok st1 =>
        rw [hl'] at h
        cases h
        refine NodeChars.loop ls ?_ (fun l' h' => hl l' (by simp [h'])) hl'
        intro n hn c hc
        rw [List.mem_singleton.1 hn] at hc
        exact hl l (by simp) c (placeFromLine_chars e0 hc)

mutual
theorem nodeChars_holds {P : Nat → Prop} {st : PStore} (hs : NodeChars P st) : ∀ {p : Place} {ref d : Nat}, Spec.Holds st ref p →
    ∀ dp ∈ p.preorder d, ∀ c, c ∈ dp.2.label ∨ c ∈ dp.2.reading.getD [] → P c
  | .node l r a k, ref, d, h => by
    obtain ⟨n, hn, rfl, rfl, rfl, hk⟩ := h
    intro dp hdp c hc
    rcases List.mem_cons.1 hdp with e | e
    · rw [e] at hc
      exact hs n (List.mem_iff_getElem?.2 ⟨ref, hn⟩) c hc
    · exact nodeChars_holdsAll hs hk dp e c hc
theorem nodeChars_holdsAll {P : Nat → Prop} {st : PStore} (hs : NodeChars P st) : ∀ {k : Places} {kd : Dict Str Nat} {d : Nat}, Spec.HoldsAll st kd k →
    ∀ dp ∈ k.preorder d, ∀ c, c ∈ dp.2.label ∨ c ∈ dp.2.reading.getD [] → P c
  | .nil, _, _, _ => by intro dp hdp; cases hdp
  | .cons key p rest, kd, d, h => by
    obtain ⟨ref, d', rfl, hp, hr⟩ := h
    intro dp hdp c hc
    rcases List.mem_append.1 hdp with e | e
    · exact nodeChars_holds hs hp dp e c hc
    · exact nodeChars_holdsAll hs hr dp e c hc
end

mutual
theorem storable_preorder : ∀ {p : Place} {d : Nat}, p.storable → ∀ dp ∈ p.preorder d, dp.2.aliases = none
  | .node l r a k, d, h => by
    intro dp hdp
    rcases List.mem_cons.1 hdp with e | e
    · rw [e]; exact h.2.2.1
    · exact storable_preorders h.2.2.2.2 dp e
theorem storable_preorders : ∀ {k : Places} {d : Nat}, k.storable → ∀ dp ∈ k.preorder d, dp.2.aliases = none
  | .nil, _, _ => by intro dp hdp; cases hdp
  | .cons key p rest, d, h => by
    intro dp hdp
    rcases List.mem_append.1 hdp with e | e
    · exact storable_preorder h.2.1 dp e
    · exact storable_preorders h.2.2 dp e
end

end Cjk
