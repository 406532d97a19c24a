import Verif.Spec.Mime
import Verif.Proofs.Params
import Verif.Proofs.Sound.Address
/-
Soundness of the parsers of src/parsing/mime/mime_fields.rs.
-/
namespace EmailParser
open Spec (Gram)

variable {A : Aborts} {α β : Type} {c : Cfg}

theorem headerLine_parses {G : Gram α} {p : Bytes → Res α} {name name2 : Bytes} {m m' : String}
    (h : name2 = name.map swapCase) (hp : Parses A G p) :
    Parses A (Spec.HeaderLine name G) (headerLine name name2 m m' p) := by
  intro i
  unfold headerLine
  refine .bind (tagNoCase_parses _ h i) fun r v w _ _ => ?_
  refine .bind (hp r) fun r v w _ _ => ?_
  refine .bind (tag_parses _ _ r) fun r _ w _ _ => ?_
  exact .pure

theorem headerLine_progress {G : Gram α} {name : Bytes} (h : name ≠ []) :
    Progress (Spec.HeaderLine name G) := progress_bind_left (progress_litNoCase h)

theorem token_parses : Parses A Spec.Token token := by
  intro i
  unfold token
  rw [isTokenChar_eq]
  exact takeWhile1_parses _ i

theorem ignoreInlineCfws_parses : Parses (aborts c) Spec.InlineCfws (ignoreInlineCfws c) := by
  intro i
  unfold ignoreInlineCfws
  rw [isWsp_eq]
  refine (PSat.bind (triplet_parses (takeWhile_parses Spec.wsp)
    (optional_parses comment_parses') (takeWhile_parses Spec.wsp) i) (F := fun _ => pure ())
    fun r v w _ _ => .pure).imp ?_
  intro w v h
  obtain ⟨⟨a, o, b⟩, h', rfl⟩ := gram_bind_pure.mp h
  obtain ⟨w₁, w₂, a', rfl, h₁, w₃, w₄, o', rfl, h₂, h₃'⟩ := h'
  obtain ⟨b', h₃, he⟩ := gram_bind_pure.mp h₃'
  clear he h₃'
  rcases h₂ with ⟨rfl, -⟩ | ⟨x, -, y, hy⟩
  · exact ⟨w₁, _, _, rfl, h₁, [], w₄, none, rfl, .inl ⟨rfl, rfl⟩, w₄, [], _, by simp, h₃, rfl, rfl⟩
  · exact ⟨w₁, _, _, rfl, h₁, w₃, w₄, some (), rfl, .inr ⟨_, rfl, hy⟩, w₄, [], _, by simp, h₃,
      rfl, rfl⟩

theorem decimal_append (u : Bytes) (d : UInt8) :
    Spec.decimal (u ++ [d]) = 10 * Spec.decimal u + (d.toNat - 48) := by
  simp [Spec.decimal]

theorem u8NumberLoop_psat : ∀ fuel (u i : Bytes), i.length < fuel → u ≠ [] →
    (∀ d ∈ u, Spec.digit d = true) → Spec.decimal u < 256 →
    PSat A (fun w n => Spec.U8Number (u ++ w) n) i (u8NumberLoop fuel i (Spec.decimal u))
  | 0, _, _, h, _, _, _ => by omega
  | fuel + 1, u, i, h, hu, hd, hlt => by
    unfold u8NumberLoop
    have hdig := digit_parses (A := A) i
    cases hx : digit i with
    | abort k => rw [hx] at hdig; exact hdig
    | err e =>
      exact .ok [] rfl ⟨⟨u, by simp, by simp, by simpa using hu, by simpa using hd⟩, hlt⟩
    | ok r =>
      obtain ⟨r, n⟩ := r
      rw [hx] at hdig
      obtain ⟨w, hi, d, hw, hdd, hn⟩ := hdig
      dsimp only at hi hw hn
      subst hw hi hn
      dsimp only
      by_cases h1 : Spec.decimal u * 10 < 256
      · rw [if_pos h1]
        by_cases h2 : Spec.decimal u * 10 + (d.toNat - 48) < 256
        · rw [if_pos h2]
          have e : Spec.decimal u * 10 + (d.toNat - 48) = Spec.decimal (u ++ [d]) := by
            rw [decimal_append]; omega
          rw [e] at h2 ⊢
          have ih := u8NumberLoop_psat fuel (u ++ [d]) r (by simp at h; omega) (by simp)
            (by intro x hx; rcases List.mem_append.mp hx with hx | hx
                · exact hd x hx
                · simp at hx; subst hx; exact hdd) h2
          refine Outcome.Sat.mono ih ?_ (fun k => A.mono [d] r k)
          rintro ⟨r', n⟩ ⟨w, hr, hw⟩
          exact ⟨[d] ++ w, by simp_all, by simpa using hw⟩
        · rw [if_neg h2]; exact .err
      · rw [if_neg h1]; exact .err

theorem u8Number_parses : Parses A Spec.U8Number u8Number := by
  intro i
  unfold u8Number
  refine (PSat.bind (digit_parses i) (F := fun n w m => ∃ d : UInt8, n = d.toNat - 48 ∧
    Spec.digit d = true ∧ Spec.U8Number ([d] ++ w) m) fun r n w _ hn => ?_).imp ?_
  · obtain ⟨d, -, hd, rfl⟩ := hn
    have e : d.toNat - 48 = Spec.decimal [d] := by simp [Spec.decimal]
    have hlt : Spec.decimal [d] < 256 := by
      have := d.toNat_lt
      rw [← e]; omega
    dsimp only
    conv => arg 4; rw [e]
    refine (u8NumberLoop_psat (A := A) (r.length + 1) [d] r (by omega) (by simp)
      (by simp [hd]) hlt).imp ?_
    exact fun w v h => ⟨d, rfl, hd, h⟩
  · rintro w m ⟨w₁, w₂, n, rfl, ⟨d, rfl, hd, rfl⟩, d', he, hd', h⟩
    have : d = d' := by
      have h1 : ∀ x : UInt8, Spec.digit x = true → 48 ≤ x.toNat := by decide +kernel
      have := h1 d hd
      have := h1 d' hd'
      exact UInt8.toNat_inj.mp (by omega)
    subst this
    exact h

theorem mimeVersionValue_parses : Parses (aborts c) Spec.MimeVersion (mimeVersionValue c) := by
  intro i
  unfold mimeVersionValue
  refine .bindRest (skipCfws_sat i) fun r w _ _ => ?_
  refine .bind (u8Number_parses r) fun r v w _ _ => ?_
  refine .bind (tag_parses _ _ r) fun r _ w _ _ => ?_
  refine .bind (u8Number_parses r) fun r v w _ _ => ?_
  refine .bind (ignoreInlineCfws_parses r) fun r _ w _ _ => ?_
  exact .pure

/-! ### Parameters -/

theorem paramNameChar_eq :
    (fun c => isTokenChar c && c != 42) = fun c => Spec.tokenChar c && c != 42 := by
  rw [isTokenChar_eq]

theorem encodedMark_parses : Parses A (Gram.map Option.isSome (Gram.opt (Gram.lit (b! "*"))))
    encodedMark := by
  intro i
  unfold encodedMark
  match i with
  | [] => exact .ok [] rfl ⟨none, rfl, .inl ⟨rfl, rfl⟩⟩
  | b :: i =>
    by_cases hb : b = 42
    · subst hb
      exact .ok [42] rfl ⟨some (), rfl, .inr ⟨(), rfl, rfl⟩⟩
    · rw [if_neg (by simpa using hb)]
      exact .ok [] rfl ⟨none, rfl, .inl ⟨rfl, rfl⟩⟩

theorem extendedName_parses : Parses A Spec.ExtendedName extendedName := by
  intro i
  unfold extendedName
  rw [paramNameChar_eq, isDigit_eq]
  refine (PSat.bind (takeWhile1_parses _ i) (F := fun name => do
    let o ← Gram.opt (do
      let a ← Gram.lit (b! "*")
      let b ← Gram.chars1 Spec.digit
      pure (a, b))
    fun w v => ∃ index, parameterIndex o = .ok index ∧
      (do
        let encoded ← Gram.map Option.isSome (Gram.opt (Gram.lit (b! "*")))
        pure (name, index, encoded) : Gram (Bytes × Option Nat × Bool)) w v)
    fun r v w _ _ => ?_).imp ?_
  · refine .bind (optional_parses (pair_parses (tag_parses _ _) (takeWhile1_parses Spec.digit)) r)
      fun r o w _ _ => ?_
    refine .bindPure (Q := fun v => parameterIndex o = .ok v) ?_ fun index hi => ?_
    · unfold parameterIndex
      split
      · split <;> simp
      · simp
    · refine (PSat.bind (encodedMark_parses r) (F := fun e => pure (v, index, e))
        fun r e w _ _ => ?_).imp ?_
      · dsimp only
        split
        · exact .pure
        · exact .err
      · exact fun w v h => ⟨index, hi, h⟩
  · rintro w v ⟨w₁, _, name, rfl, h₁, w₂, w₃, o, rfl, h₂, index, hidx, h₃⟩
    refine ⟨w₁, _, name, rfl, h₁, w₂, w₃, index, rfl, ?_, h₃⟩
    rcases h₂ with ⟨rfl, rfl⟩ | ⟨⟨a, b⟩, rfl, h⟩
    · simp only [parameterIndex, Outcome.ok.injEq] at hidx
      exact .inl ⟨rfl, hidx.symm⟩
    · obtain ⟨u₁, u₂, _, rfl, rfl, h⟩ := h
      obtain ⟨b', h, he⟩ := gram_bind_pure.mp h
      simp only [Prod.mk.injEq] at he
      obtain ⟨-, rfl⟩ := he
      unfold parameterIndex at hidx
      dsimp only at hidx
      unfold parseUnsigned at hidx
      split at hidx
      · rename_i n hn
        split at hn
        · rename_i hlt
          simp only [Option.some.injEq] at hn
          simp only [Outcome.ok.injEq] at hidx
          subst hidx hn
          rw [natOfDigits_eq] at hlt ⊢
          exact .inr ⟨_, rfl, _, _, (), rfl, rfl, ⟨_, rfl, h⟩, hlt⟩
        · simp at hn
      · simp at hidx

/-- The classes are followed by something else. -/
theorem takeWhile_stop {p : UInt8 → Bool} {w : Bytes} {b : UInt8} {r : Bytes}
    (hw : ∀ x ∈ w, p x = true) (hb : p b = false) :
    (w ++ b :: r).takeWhile p = w ∧ (w ++ b :: r).dropWhile p = b :: r := by
  induction w with
  | nil => simp [hb]
  | cons a w ih =>
    have ha := hw a (by simp)
    obtain ⟨h1, h2⟩ := ih fun x hx => hw x (by simp [hx])
    simp [ha, h1, h2]

theorem takeWhile1_stop {p : UInt8 → Bool} {w : Bytes} {b : UInt8} {r : Bytes}
    (hne : w ≠ []) (hw : ∀ x ∈ w, p x = true) (hb : p b = false) :
    takeWhile1 (w ++ b :: r) p = .ok (b :: r, w) := by
  obtain ⟨h1, h2⟩ := takeWhile_stop (r := r) hw hb
  rw [takeWhile1_eq, h1, h2, if_neg hne]

theorem parseUnsigned_eq {n : Nat} {w : Bytes} (h : Spec.decimal w < n) :
    parseUnsigned n w = some (Spec.decimal w) := by
  unfold parseUnsigned
  rw [natOfDigits_eq]
  simp [h]

/-- `ExtendedName` before `=` is recognised. -/
theorem extendedName_complete {w : Bytes} (r : Bytes) {v} (h : Spec.ExtendedName w v) :
    extendedName (w ++ 61 :: r) = .ok (61 :: r, v) := by
  obtain ⟨w₁, _, name, rfl, ⟨rfl, hne, hn⟩, w₂, w₃, index, rfl, h₂, h₃'⟩ := h
  obtain ⟨e, ⟨o, rfl, h₃⟩, rfl⟩ := gram_bind_pure.mp h₃'
  unfold extendedName
  rw [paramNameChar_eq, isDigit_eq]
  -- the first character after the name
  have hstar : ∃ b t, w₂ ++ w₃ ++ 61 :: r = b :: t ∧ (b = 42 ∨ b = 61) := by
    rcases h₂ with ⟨rfl, -⟩ | ⟨a, -, u₁, u₂, _, rfl, rfl, -⟩
    · rcases h₃ with ⟨rfl, -⟩ | ⟨a, -, rfl⟩
      · exact ⟨61, r, rfl, .inr rfl⟩
      · exact ⟨42, 61 :: r, rfl, .inl rfl⟩
    · exact ⟨42, u₂ ++ w₃ ++ 61 :: r, by simp, .inl rfl⟩
  obtain ⟨b, t, hbt, hb⟩ := hstar
  have hstop : (Spec.tokenChar b && b != 42) = false := by rcases hb with rfl | rfl <;> decide
  have e1 : name ++ (w₂ ++ w₃) ++ 61 :: r = name ++ b :: t := by rw [← hbt]; simp
  rw [e1, takeWhile1_stop hne hn hstop, ← hbt]
  simp only [ok_bind]
  have mark : ∀ i, i = w₃ ++ 61 :: r → encodedMark i = .ok (61 :: r, o.isSome) := by
    rintro _ rfl
    rcases h₃ with ⟨rfl, rfl⟩ | ⟨a, rfl, rfl⟩ <;> rfl
  rcases h₂ with ⟨rfl, rfl⟩ | ⟨n, rfl, u₁, u₂, _, rfl, rfl, ⟨u, hu, hu1, hu2, hu3⟩, hlt⟩
  · have hopt : optional ([] ++ w₃ ++ 61 :: r) (fun input => pair input
        (fun input => tag input (b! "*")
          "TAG ERROR: An indexed MIME parameter name must contain a `*`.")
        (fun input => takeWhile1 input Spec.digit)) = .ok (w₃ ++ 61 :: r, none) := by
      unfold optional pair
      rcases h₃ with ⟨rfl, -⟩ | ⟨a, -, rfl⟩
      · rfl
      · have : takeWhile1 (61 :: r) Spec.digit = .err (.unknown "Expected at least one character matching") := by
          rw [takeWhile1_eq]; simp [Spec.digit]
        have ht := tag_append (b! "*") (61 :: r) "TAG ERROR: An indexed MIME parameter name must contain a `*`."
        simp only [List.nil_append] at ht ⊢
        rw [ht]
        simp only [ok_bind, this, err_bind]
    rw [hopt]
    simp only [ok_bind, parameterIndex, mark _ rfl]
    rfl
  · subst hu1 hu
    have hd : ∃ b t, w₃ ++ 61 :: r = b :: t ∧ Spec.digit b = false := by
      rcases h₃ with ⟨rfl, -⟩ | ⟨a, -, rfl⟩
      · exact ⟨61, r, rfl, by decide⟩
      · exact ⟨42, 61 :: r, rfl, by decide⟩
    obtain ⟨b', t', hbt', hb'⟩ := hd
    have hopt : optional (b! "*" ++ u ++ w₃ ++ 61 :: r) (fun input => pair input
        (fun input => tag input (b! "*")
          "TAG ERROR: An indexed MIME parameter name must contain a `*`.")
        (fun input => takeWhile1 input Spec.digit)) = .ok (w₃ ++ 61 :: r, some ((), u)) := by
      unfold optional pair
      rw [show b! "*" ++ u ++ w₃ ++ 61 :: r = b! "*" ++ (u ++ (w₃ ++ 61 :: r)) by simp]
      dsimp only
      rw [tag_append, ok_bind]
      dsimp only
      rw [hbt', takeWhile1_stop hu2 hu3 hb']
      rfl
    rw [hopt]
    simp only [ok_bind, parameterIndex, parseUnsigned_eq hlt, mark _ rfl]
    rfl

theorem paramText_parses : Parses (aborts c) Spec.ParamText (parameterValue c) := by
  refine matchParsers_two (fun i => ?_) quotedString_parses
  refine (PSat.bind (token_parses i) (F := fun v => pure v) fun r v w _ _ => .pure).imp ?_
  intro w v h
  obtain ⟨a, h', rfl⟩ := gram_bind_pure.mp h
  exact h'

/-- The name of a parameter, with the equals sign that follows. -/
theorem paramName_psat (i : Bytes) (m : String) {γ : Type} {F : (Bytes × Option Nat × Bool) → Gram γ}
    {f : (Bytes × Option Nat × Bool) → Bytes → Res γ}
    (hf : ∀ v r, PSat A (F v) r (f v r)) :
    PSat A (do let v ← Spec.ParamName; Gram.lit (b! "="); F v) i (do
      let (input, v) ← matchParsers i
        [ extendedName,
          fun input => do
            let (input, name) ← token input
            .ok (input, (name, none, false)) ]
      let (input, ()) ← tag input (b! "=") m
      f v input) := by
  have hE := extendedName_parses (A := A) i
  have hT := token_parses (A := A) i
  simp only [matchParsers]
  cases hx : extendedName i with
  | abort k => rw [hx] at hE; exact hE
  | ok s =>
    rw [hx] at hE
    refine PSat.bind (G := Spec.ParamName) (hE.imp fun _ _ h => .inl h) fun r v w _ _ => ?_
    refine .bind (tag_parses _ _ r) fun r _ w _ _ => ?_
    exact hf v r
  | err e =>
    cases hy : token i with
    | err e => exact .err
    | abort k => rw [hy] at hT; exact hT
    | ok s =>
      obtain ⟨s, t⟩ := s
      rw [hy] at hT
      obtain ⟨w, hi, rfl, ht1, ht2⟩ := hT
      dsimp only at hi
      simp only [ok_bind]
      rcases tag_cases s (b! "=") m with ⟨r, hs, h⟩ | ⟨_, h⟩
      · rw [h]
        simp only [ok_bind]
        refine Outcome.Sat.mono (hf (t, none, false) r) ?_ (fun k hk => by
          rw [hi, hs]; exact A.mono _ _ _ (A.mono _ _ _ hk))
        rintro ⟨r', v⟩ ⟨w', hr, hF⟩
        refine ⟨t ++ (b! "=" ++ w'), by simp_all, t, _, (t, none, false), rfl, ?_, _, _, (), rfl, rfl, hF⟩
        refine .inr ⟨fun v' hv' => ?_, ⟨rfl, ht1, ht2⟩, rfl⟩
        have := extendedName_complete r hv'
        rw [hi, hs] at hx
        simp only [List.cons_append, List.nil_append] at hx
        rw [this] at hx
        simp at hx
      · rw [h]; exact .err

theorem parameter_parses : Parses (aborts c) Spec.Parameter (parameter c) := by
  intro i
  unfold parameter
  refine .bindRest (skipCfws_sat i) fun r w _ _ => ?_
  refine .bind (tag_parses _ _ r) fun r _ w _ _ => ?_
  refine .bindRest (skipCfws_sat r) fun r w _ _ => ?_
  refine paramName_psat r _ (f := fun v input => do
    let (input, value) ← parameterValue c input
    .ok (input, RawParam.mk (lowercase v.1) v.2.1 v.2.2 value))
    (F := fun v => do
      let value ← Spec.ParamText
      pure (RawParam.mk (lowercase v.1) v.2.1 v.2.2 value)) fun v r => ?_
  refine .bind (paramText_parses r) fun r v w _ _ => ?_
  exact .pure

theorem parameter_progress : Progress Spec.Parameter :=
  progress_bind_right fun _ => progress_bind_left (progress_lit (by decide))

/-! ### Collected parameters -/

theorem u8Number_small {w : Bytes} {n : Nat} (h : Spec.U8Number w n) : n < 256 := h.2

theorem parameter_index {w : Bytes} {p : RawParam} (h : Spec.Parameter w p) :
    (∀ k, p.index = some k → k < 256 ∧ 1 ≤ w.count 42) := by
  obtain ⟨w₁, _, _, rfl, -, w₂, _, _, rfl, -, w₃, _, _, rfl, -, w₄, w₅, ⟨name, index, encoded⟩, rfl,
    hn, h⟩ := h
  have hidx : p.index = index := by
    obtain ⟨_, _, _, -, -, _, _, value, -, -, -, rfl⟩ := h
    rfl
  intro k hk
  rw [hidx] at hk
  subst hk
  rcases hn with hn | ⟨-, -, hv⟩
  · obtain ⟨u₁, _, nm, rfl, -, u₂, u₃, idx, rfl, h₂, h₃⟩ := hn
    obtain ⟨e, -, he⟩ := gram_bind_pure.mp h₃
    simp only [Prod.mk.injEq] at he
    rcases h₂ with ⟨-, rfl⟩ | ⟨a, rfl, v₁, v₂, _, rfl, rfl, hu⟩
    · simp at he
    · refine ⟨?_, ?_⟩
      · have := u8Number_small hu
        simp only [Option.some.injEq] at he
        omega
      · simp only [List.count_append]
        have : List.count 42 (b! "*") = 1 := by decide
        omega
  · simp at hv

theorem parameters_small {w : Bytes} {ps : List RawParam} (h : Gram.star Spec.Parameter w ps) :
    IndicesSmall ps ∧ indexedCount ps ≤ w.count 42 := by
  induction h with
  | nil => exact ⟨by intro p hp; simp at hp, by simp [indexedCount]⟩
  | cons hp _ ih =>
    rename_i w₁ w₂ p ps _
    have h := parameter_index hp
    refine ⟨?_, ?_⟩
    · intro q hq k hk
      rcases List.mem_cons.mp hq with rfl | hq
      · exact (h k hk).1
      · exact ih.1 q hq k hk
    · simp only [List.count_append]
      have ih2 := ih.2
      unfold indexedCount at ih2 ⊢
      cases hi : p.index with
      | none => simp [hi]; omega
      | some k =>
        have := (h k hi).2
        simp [hi]; omega

/-- `collect_parameters` after the parameters have been read: the text that justifies an abort has
already been consumed. -/
theorem PSat.bindAfter {G : Gram α} {γ : Type} {Q : α → γ → Prop} {F : α → γ → Gram β} {i : Bytes}
    {x : Res α} {g : α → Outcome γ} {f : Bytes → α → γ → Res β}
    (hx : PSat A G i x)
    (hg : ∀ r v w, i = w ++ r → G w v → (g v).Sat (Q v) (A.P i))
    (hf : ∀ r v b, Q v b → PSat A (F v b) r (f r v b)) :
    PSat A (do let v ← G; let b ← fun w b => w = [] ∧ Q v b; F v b) i
      (x >>= fun p => g p.2 >>= fun b => f p.1 p.2 b) := by
  cases x with
  | err e => trivial
  | abort k => exact hx
  | ok p =>
    obtain ⟨r, v⟩ := p
    obtain ⟨w, hi, hG⟩ := hx
    dsimp only at hi hG
    have hg := hg r v w hi hG
    simp only [ok_bind]
    cases hb : g v with
    | err e => trivial
    | abort k => rw [hb] at hg; exact hg
    | ok b =>
      rw [hb] at hg
      simp only [ok_bind]
      subst hi
      refine Outcome.Sat.mono (hf r v b hg) ?_ (fun k => A.mono w r k)
      rintro ⟨r', v'⟩ ⟨w', hr, hF⟩
      exact ⟨w ++ w', by simp_all, w, w', v, rfl, hG, [], w', b, rfl, ⟨rfl, hg⟩, hF⟩

theorem collectParameters_sat (hm : c.feat.mime = true) {i : Bytes} {ps : List RawParam}
    (hs : IndicesSmall ps) (hc : indexedCount ps ≤ i.count 42) :
    (collectParameters c ps).Sat (fun p => ∀ name, Spec.ParamValue c ps name (p name))
      ((aborts c).P i) := by
  obtain ⟨h1, -, h3⟩ := collectParameters_spec (c := c) hs
  rw [sat_iff]
  refine ⟨h1, fun k hk => ?_⟩
  obtain ⟨rfl, ho, name, ha⟩ := h3 k hk
  have := allSegments_count ha
  exact .inr ⟨rfl, ho, hm, by omega⟩

/-! ### Keywords -/

theorem keyword_psat {s s2 : Bytes} {m : String} {v : α} {i : Bytes} {G : Gram α}
    {ps : List (Bytes → Res α)} (hs : s2 = s.map swapCase)
    (hG : ∀ w, w.map asciiLower = s.map asciiLower → G w v)
    (hps : ¬ s.map asciiLower <+: i.map asciiLower → PSat A G i (matchParsers i ps)) :
    PSat A G i (matchParsers i (keyword s s2 m v :: ps)) := by
  subst hs
  unfold matchParsers keyword
  rcases tagNoCase_cases i s m with ⟨n, r, hi, hn, h⟩ | ⟨hn, x, h⟩
  · rw [h]
    exact .ok n hi (hG n hn)
  · rw [h]
    exact hps hn

theorem otherToken_psat {mk : Bytes → α} {i : Bytes} {table : List (Bytes × α)}
    (h : ∀ e ∈ table, ¬ e.1 <+: i.map asciiLower) :
    PSat A (Spec.NamedOr table mk) i (matchParsers i [otherToken mk]) := by
  refine matchParsers_psat fun p hp => ?_
  simp only [List.mem_cons, List.not_mem_nil, or_false] at hp
  subst hp
  unfold otherToken
  have hT := token_parses (A := A) i
  cases hx : token i with
  | err e => exact .err
  | abort k => rw [hx] at hT; exact hT
  | ok r =>
    rw [hx] at hT
    obtain ⟨w, hi, hw, ht⟩ := hT
    refine .ok w hi (.inr ⟨⟨rfl, ht⟩, fun e he heq => h e he ?_, ?_⟩)
    · rw [hi, List.map_append]
      exact heq.trans (List.prefix_append _ _)
    · rw [hw]; rfl

theorem mimeType_parses : Parses A (Spec.NamedOr Spec.typeNames .unknown) mimeType := by
  intro i
  unfold mimeType
  refine keyword_psat (by decide) (fun w hw => .inl ⟨_, by decide, hw⟩) fun h1 => ?_
  refine keyword_psat (by decide) (fun w hw => .inl ⟨_, by decide, hw⟩) fun h2 => ?_
  refine keyword_psat (by decide) (fun w hw => .inl ⟨_, by decide, hw⟩) fun h3 => ?_
  refine keyword_psat (by decide) (fun w hw => .inl ⟨_, by decide, hw⟩) fun h4 => ?_
  refine keyword_psat (by decide) (fun w hw => .inl ⟨_, by decide, hw⟩) fun h5 => ?_
  refine keyword_psat (by decide) (fun w hw => .inl ⟨_, by decide, hw⟩) fun h6 => ?_
  refine keyword_psat (by decide) (fun w hw => .inl ⟨_, by decide, hw⟩) fun h7 => ?_
  refine otherToken_psat ?_
  simp only [Spec.typeNames, List.forall_mem_cons]
  exact ⟨h1, h2, h3, h4, h5, h6, h7, by simp⟩

theorem dispositionType_parses :
    Parses A (Spec.NamedOr Spec.dispositionNames .unknown) dispositionType := by
  intro i
  unfold dispositionType
  refine keyword_psat (by decide) (fun w hw => .inl ⟨_, by decide, hw⟩)
    fun h1 => ?_
  refine keyword_psat (by decide) (fun w hw => .inl ⟨_, by decide, hw⟩)
    fun h2 => ?_
  refine otherToken_psat ?_
  simp only [Spec.dispositionNames, List.forall_mem_cons]
  exact ⟨h1, h2, by simp⟩

theorem transferEncoding_parses :
    Parses A (Spec.NamedOr Spec.encodingNames .unknown) transferEncoding := by
  intro i
  unfold transferEncoding
  refine keyword_psat (by decide) (fun w hw => .inl ⟨_, by decide, hw⟩)
    fun h1 => ?_
  refine keyword_psat (by decide) (fun w hw => .inl ⟨_, by decide, hw⟩)
    fun h2 => ?_
  refine keyword_psat (by decide) (fun w hw => .inl ⟨_, by decide, hw⟩)
    fun h3 => ?_
  refine keyword_psat (by decide) (fun w hw => .inl ⟨_, by decide, hw⟩)
    fun h4 => ?_
  refine keyword_psat (by decide) (fun w hw => .inl ⟨_, by decide, hw⟩)
    fun h5 => ?_
  refine otherToken_psat ?_
  simp only [Spec.encodingNames, List.forall_mem_cons]
  exact ⟨h1, h4, h5, h2, h3, by simp⟩

theorem transferEncodingValue_parses :
    Parses (aborts c) Spec.TransferEncodingG (transferEncodingValue c) := by
  intro i
  unfold transferEncodingValue
  refine .bindRest (skipCfws_sat i) fun r w _ _ => ?_
  refine .bind (transferEncoding_parses r) fun r v w _ _ => ?_
  refine .bind (ignoreInlineCfws_parses r) fun r _ w _ _ => ?_
  exact .pure

/-! ### Content-Type -/

theorem contentTypeValue_parses (hm : c.feat.mime = true) :
    Parses (aborts c) (Spec.ContentTypeG c) (contentTypeValue c) := by
  intro i
  unfold contentTypeValue
  refine .bindRest (skipCfws_sat i) fun r w _ _ => ?_
  refine .bind (mimeType_parses r) fun r type w _ _ => ?_
  refine .bind (tag_parses _ _ r) fun r _ w _ _ => ?_
  refine .bind (token_parses r) fun r subtype w _ _ => ?_
  refine .bindAfter (many_parses parameter_progress parameter_parses r)
    (Q := fun ps (p : Params) => ∀ name, Spec.ParamValue c ps name (p name))
    (g := fun ps => collectParameters c ps)
    (f := fun input _ parameters => do
      let (input, ()) ← ignoreInlineCfws c input
      .ok (input, (type, lowercase subtype, parameters)))
    (F := fun _ params => do
      Spec.InlineCfws
      pure (type, subtype.map asciiLower, params)) ?_ ?_
  · intro r' ps w hr hps
    obtain ⟨h1, h2⟩ := parameters_small hps
    refine collectParameters_sat hm h1 ?_
    rw [hr, List.count_append]
    omega
  · intro r ps params _
    refine .bind (ignoreInlineCfws_parses r) fun r _ w _ _ => ?_
    exact .pure

/-! ### Content-Disposition -/

/-- The parameter `filename`. -/
def FilenameParam : Gram Bytes := do
  Spec.OptCfws
  Gram.lit (b! ";")
  Spec.OptCfws
  Gram.litNoCase (b! "filename")
  Gram.lit (b! "=")
  Spec.ParamText

theorem filenameParameter_parses : Parses (aborts c) FilenameParam (filenameParameter c) := by
  intro i
  unfold filenameParameter
  refine .bindRest (skipCfws_sat i) fun r w _ _ => ?_
  refine .bind (tag_parses _ _ r) fun r _ w _ _ => ?_
  refine .bindRest (skipCfws_sat r) fun r w _ _ => ?_
  refine .bind (tagNoCase_parses _ (by decide) r) fun r _ w _ _ => ?_
  refine .bind (tag_parses _ _ r) fun r _ w _ _ => ?_
  exact paramText_parses r

theorem dateParameter_parses {name name2 : Bytes} (h : name2 = name.map swapCase) :
    Parses (aborts c) (Spec.DateParam name) (fun i => dateParameter c i name name2) := by
  intro i
  unfold dateParameter
  refine .bindRest (skipCfws_sat i) fun r w _ _ => ?_
  refine .bind (tag_parses _ _ r) fun r _ w _ _ => ?_
  refine .bindRest (skipCfws_sat r) fun r w _ _ => ?_
  refine .bind (tagNoCase_parses _ h r) fun r _ w _ _ => ?_
  refine .bind (tag_parses _ _ r) fun r _ w _ _ => ?_
  refine .bind (dateTime_parses r) fun r v w _ _ => ?_
  refine .bind (tag_parses _ _ r) fun r _ w _ _ => ?_
  exact .pure

/-- A parameter called `filename` is recognised as such. -/
theorem filename_of_parameter {i r : Bytes} {p : RawParam} (h : parameter c i = .ok (r, p))
    (hn : p.name = b! "filename") (hi : p.index = none) (he : p.encoded = false) :
    ∃ v, filenameParameter c i = .ok (r, v) := by
  unfold parameter at h
  obtain ⟨i1, h1, h⟩ := bind_eq_ok.mp h
  obtain ⟨⟨i2, _⟩, h2, h⟩ := bind_eq_ok.mp h
  obtain ⟨i3, h3, h⟩ := bind_eq_ok.mp h
  obtain ⟨⟨i4, name, index, encoded⟩, h4, h⟩ := bind_eq_ok.mp h
  obtain ⟨⟨i5, _⟩, h5, h⟩ := bind_eq_ok.mp h
  obtain ⟨⟨i6, value⟩, h6, h⟩ := bind_eq_ok.mp h
  simp only [Outcome.ok.injEq, Prod.mk.injEq] at h
  obtain ⟨rfl, rfl⟩ := h
  dsimp only at hn hi he
  subst hi he
  rw [tag_ok_iff] at h2 h5
  -- the text of the name
  have hname : i3 = name ++ i4 := by
    unfold matchParsers at h4
    have hE := extendedName_parses (A := Aborts.none) i3
    cases hx : extendedName i3 with
    | abort k => rw [hx] at h4; simp at h4
    | ok s =>
      rw [hx] at hE h4
      simp only [Outcome.ok.injEq] at h4
      subst h4
      obtain ⟨w, hw, w₁, _, nm, rfl, ⟨rfl, -⟩, w₂, w₃, idx, rfl, h₂, h₃'⟩ := hE
      obtain ⟨e, ⟨o, rfl, h₃⟩, heq⟩ := gram_bind_pure.mp h₃'
      simp only [Prod.mk.injEq] at heq
      obtain ⟨rfl, rfl, ho⟩ := heq
      rcases h₂ with ⟨rfl, -⟩ | ⟨a, h, -⟩
      · rcases h₃ with ⟨rfl, rfl⟩ | ⟨a, rfl, -⟩
        · simpa using hw
        · simp at ho
      · simp at h
    | err e =>
      rw [hx] at h4
      dsimp only [matchParsers] at h4
      have hT := token_parses (A := Aborts.none) i3
      cases hy : token i3 with
      | abort k => rw [hy] at h4; simp at h4
      | err e => rw [hy] at h4; simp at h4
      | ok s =>
        rw [hy] at hT h4
        simp only [ok_bind, Outcome.ok.injEq, Prod.mk.injEq] at h4
        obtain ⟨w, hw, hv, -⟩ := hT
        rw [hw, ← hv, h4.1, h4.2.1]
  unfold filenameParameter
  rw [h1, ok_bind, h2, tag_append, ok_bind]
  dsimp only
  rw [h3, ok_bind, hname]
  have := tagNoCase_append (n := name) (e := b! "filename") i4
    "TAG NO CASE ERROR: In a Content-Disposition header, the name of the parameter does not match a filename parameter."
    (by rw [show (b! "filename").map asciiLower = b! "filename" by decide]; exact hn)
  rw [show (b! "filename").map swapCase = b! "FILENAME" by decide] at this
  rw [this, ok_bind]
  dsimp only
  rw [h5, tag_append, ok_bind]
  exact ⟨value, h6⟩

theorem map_psat {G : Gram α} {H : Gram β} {i : Bytes} {x : Res α} {f : α → β} (hx : PSat A G i x)
    (h : ∀ w v, x.Sat (fun r => r.2 = v) (fun _ => True) → G w v → H w (f v)) :
    PSat A H i (do let (i, v) ← x; .ok (i, f v)) := by
  cases x with
  | err e => trivial
  | abort k => exact hx
  | ok r =>
    obtain ⟨w, hi, hG⟩ := hx
    exact .ok w hi (h w _ rfl hG)

theorem dispositionItem_parses :
    Parses (aborts c) Spec.DispositionParam (dispositionItem c) := by
  intro i
  unfold dispositionItem
  have hF := filenameParameter_parses (c := c) i
  unfold matchParsers
  dsimp only
  cases hx : filenameParameter c i with
  | abort k => rw [hx] at hF; exact hF
  | ok r =>
    rw [hx] at hF
    obtain ⟨w, hi, hG⟩ := hF
    exact PSat.ok (G := Spec.DispositionParam) w hi (.inl ⟨_, rfl, hG⟩)
  | err e =>
    simp only [err_bind]
    refine matchParsers_psat fun p hp => ?_
    simp only [List.mem_cons, List.not_mem_nil, or_false] at hp
    rcases hp with rfl | rfl | rfl | rfl
    · exact map_psat (dateParameter_parses (by decide) i) fun w v _ h => .inr (.inl ⟨v, rfl, h⟩)
    · exact map_psat (dateParameter_parses (by decide) i) fun w v _ h =>
        .inr (.inr (.inl ⟨v, rfl, h⟩))
    · exact map_psat (dateParameter_parses (by decide) i) fun w v _ h =>
        .inr (.inr (.inr (.inl ⟨v, rfl, h⟩)))
    · have hP := parameter_parses (c := c) i
      dsimp only
      cases hy : parameter c i with
      | abort k => rw [hy] at hP; exact hP
      | err e => exact .err
      | ok r =>
        rw [hy] at hP
        obtain ⟨w, hi, hG⟩ := hP
        refine PSat.ok (G := Spec.DispositionParam) w hi (.inr (.inr (.inr (.inr ⟨_, rfl, hG, ?_⟩))))
        rintro ⟨h1, h2, h3⟩
        obtain ⟨v, hv⟩ := filename_of_parameter (r := r.1) (p := r.2) hy h1 h2 h3
        rw [hx] at hv
        simp at hv

theorem dispositionItem_progress : Progress Spec.DispositionParam := by
  have hd : ∀ name, Progress (Spec.DateParam name) := fun _ =>
    progress_bind_right fun _ => progress_bind_left (progress_lit (by decide))
  have hf : Progress FilenameParam :=
    progress_bind_right fun _ => progress_bind_left (progress_lit (by decide))
  rintro w v (⟨_, -, h⟩ | ⟨_, -, h⟩ | ⟨_, -, h⟩ | ⟨_, -, h⟩ | ⟨_, -, h, -⟩)
  · exact hf _ _ h
  · exact hd _ _ _ h
  · exact hd _ _ _ h
  · exact hd _ _ _ h
  · exact parameter_progress _ _ h

theorem items_small {w : Bytes} {items : List DispositionItem}
    (h : Gram.star Spec.DispositionParam w items) :
    IndicesSmall (items.filterMap DispositionItem.rawParam?) ∧
      indexedCount (items.filterMap DispositionItem.rawParam?) ≤ w.count 42 := by
  induction h with
  | nil => exact ⟨by intro p hp; simp at hp, by simp [indexedCount]⟩
  | cons hp _ ih =>
    rename_i w₁ w₂ item items _
    simp only [List.count_append]
    rcases hp with ⟨v, rfl, -⟩ | ⟨v, rfl, -⟩ | ⟨v, rfl, -⟩ | ⟨v, rfl, -⟩ | ⟨p, rfl, hp, -⟩
    · exact ⟨ih.1, Nat.le_trans ih.2 (by omega)⟩
    · exact ⟨ih.1, Nat.le_trans ih.2 (by omega)⟩
    · exact ⟨ih.1, Nat.le_trans ih.2 (by omega)⟩
    · exact ⟨ih.1, Nat.le_trans ih.2 (by omega)⟩
    · have h := parameter_index hp
      have e : (DispositionItem.parameter p :: items).filterMap DispositionItem.rawParam? =
          p :: items.filterMap DispositionItem.rawParam? := rfl
      rw [e]
      refine ⟨?_, ?_⟩
      · intro q hq k hk
        rcases List.mem_cons.mp hq with rfl | hq
        · exact (h k hk).1
        · exact ih.1 q hq k hk
      · have ih2 := ih.2
        unfold indexedCount at ih2 ⊢
        cases hi : p.index with
        | none => simp [hi]; omega
        | some k =>
          have := (h k hi).2
          simp [hi]; omega

theorem rawParam?_eq : DispositionItem.rawParam? =
    fun | .parameter p => some p | _ => none := by
  funext x; cases x <;> rfl

theorem foldl_add (items : List DispositionItem) : ∀ d : Disposition,
    items.foldl Disposition.add d =
      { dispositionType := d.dispositionType
        filename := (items.filterMap fun | .filename v => some v | _ => none).getLast?.or d.filename
        creationDate :=
          (items.filterMap fun | .creationDate d => some d | _ => none).getLast?.or d.creationDate
        modificationDate := (items.filterMap fun
          | .modificationDate d => some d | _ => none).getLast?.or d.modificationDate
        readDate := (items.filterMap fun | .readDate d => some d | _ => none).getLast?.or d.readDate
        unstructured := d.unstructured } := by
  induction items with
  | nil => intro d; rfl
  | cons x items ih =>
    intro d
    rw [List.foldl_cons, ih]
    have key : ∀ {α : Type} (a : α) (l : List α) (o : Option α),
        (a :: l).getLast?.or o = l.getLast?.or (some a) := by
      intro α a l o
      rw [List.getLast?_cons]
      cases l.getLast? <;> rfl
    cases x <;> simp [Disposition.add, key]

theorem contentDispositionValue_parses (hm : c.feat.mime = true) :
    Parses (aborts c) (Spec.DispositionG c) (contentDispositionValue c) := by
  intro i
  unfold contentDispositionValue
  refine .bindRest (skipCfws_sat i) fun r w _ _ => ?_
  refine .bind (dispositionType_parses r) fun r type w _ _ => ?_
  refine .bindAfter (many_parses dispositionItem_progress dispositionItem_parses r)
    (Q := fun items (p : Params) => ∀ name, Spec.ParamValue c
      (items.filterMap fun | .parameter p => some p | _ => none) name (p name))
    (g := fun items => collectParameters c (items.filterMap DispositionItem.rawParam?))
    (f := fun input items unstructured => do
      let (input, ()) ← ignoreInlineCfws c input
      .ok (input, { items.foldl Disposition.add
        { dispositionType := type, filename := none, creationDate := none, modificationDate := none,
          readDate := none, unstructured := Params.empty } with unstructured }))
    (F := fun items params => do
      Spec.InlineCfws
      pure
        { dispositionType := type
          filename := (items.filterMap fun | .filename v => some v | _ => none).getLast?
          creationDate := (items.filterMap fun | .creationDate d => some d | _ => none).getLast?
          modificationDate :=
            (items.filterMap fun | .modificationDate d => some d | _ => none).getLast?
          readDate := (items.filterMap fun | .readDate d => some d | _ => none).getLast?
          unstructured := params }) ?_ ?_
  · intro r' items w hr hitems
    obtain ⟨h1, h2⟩ := items_small hitems
    have := collectParameters_sat (c := c) (i := r) hm h1
      (by rw [hr, List.count_append]; omega)
    rw [rawParam?_eq] at this ⊢
    exact this
  · intro r items params _
    refine .bind (ignoreInlineCfws_parses r) fun r _ w _ _ => ?_
    dsimp only
    rw [foldl_add]
    simp only [Option.or_none]
    exact .pure

end EmailParser
