import Verif.Proofs.Complete.Address
import Verif.Spec.PrintAddress
/-
What the printers of addresses write is laid out as the parsers need it.
-/
namespace EmailParser
open Spec (Gram Gap Names MailboxL Commas GroupName AddressL)

variable {c : Cfg}

theorem dotAtomFrom_parts : ∀ x : Bytes, Spec.dotAtomFrom true x = true →
    ∃ y z zs, x = y ++ z ∧ (∀ b ∈ y, Spec.atext b = true) ∧ Gram.star (DotThen false) z zs ∧ zs.flatten = z
  | [], _ => ⟨[], [], [], rfl, by simp, .nil, rfl⟩
  | [b], h => by
    unfold Spec.dotAtomFrom at h
    split at h
    · simp [Spec.dotAtomFrom] at h
    · simp only [Bool.and_eq_true] at h
      exact ⟨[b], [], [], rfl, by simpa using h.1, .nil, rfl⟩
  | b :: b' :: x, h => by
    unfold Spec.dotAtomFrom at h
    split at h
    · rename_i hb
      simp only [Bool.true_and] at h
      unfold Spec.dotAtomFrom at h
      split at h
      · simp at h
      · simp only [Bool.and_eq_true] at h
        obtain ⟨y, z, zs, rfl, hy, hz, e⟩ := dotAtomFrom_parts x h.2
        obtain rfl : b = 46 := by simpa using hb
        refine ⟨[], 46 :: b' :: (y ++ z), (b! "." ++ b' :: y) :: zs, rfl, by simp, ?_, by simp [e]⟩
        have : DotThen false (b! "." ++ (b' :: y ++ [])) (b! "." ++ b' :: y) :=
          ⟨_, _, (), rfl, rfl, b' :: y, [], b' :: y, by simp, ⟨rfl, by simp, by
            intro x hx
            rcases List.mem_cons.mp hx with rfl | hx
            · exact h.1
            · exact hy x hx⟩, rfl, rfl⟩
        have := Gram.star.cons this hz
        simpa using this
    · simp only [Bool.and_eq_true] at h
      obtain ⟨y, z, zs, e1, hy, hz, e⟩ := dotAtomFrom_parts (b' :: x) h.2
      refine ⟨b :: y, z, zs, by simp [e1], ?_, hz, e⟩
      intro x hx
      rcases List.mem_cons.mp hx with rfl | hx
      · exact h.1
      · exact hy x hx

theorem dotAtomB_text {x : Bytes} (h : Spec.dotAtomB x = true) : Spec.DotAtomText false x x := by
  unfold Spec.dotAtomB at h
  cases x with
  | nil => cases h
  | cons b x =>
    unfold Spec.dotAtomFrom at h
    split at h
    · simp at h
    · simp only [Bool.and_eq_true] at h
      obtain ⟨y, z, zs, rfl, hy, hz, e⟩ := dotAtomFrom_parts x h.2
      refine ⟨b :: y, z ++ [], b :: y, by simp, ⟨rfl, by simp, ?_⟩, z, [], zs, rfl, hz, rfl, by simp [e]⟩
      intro x hx
      rcases List.mem_cons.mp hx with rfl | hx
      · exact h.1
      · exact hy x hx

theorem quote_quoted {x : Bytes} (hx : Spec.Printable x) : Spec.Quoted (Spec.quote x) x := by
  obtain ⟨s, vs, last, e, hs, hl, hv⟩ := escape_parts x [] hx (by simp)
  simp only [List.nil_append] at e hv
  exact ⟨_, s ++ (last ++ (b! "\"" ++ [])), (), by simp [Spec.quote, e], rfl, s, _, vs, rfl, hs, last, _, last,
    rfl, optFws_wsp hl, _, _, (), rfl, rfl, rfl, hv.symm⟩

theorem looksEncoded_iff {x : Bytes} : Spec.looksEncoded x = false ↔ ¬ b! "=?" <+: x := by
  rw [← List.isPrefixOf_iff_prefix, Spec.looksEncoded, Bool.not_eq_true]

theorem gap_space : Gap c (b! " ") () := optCfws_space

/-- A printed phrase after comments or white space; the next thing is a space and something else, or
something that is not part of an atom. -/
theorem printPhrase_names {t : Bytes} (ht : Gap c t ()) : ∀ (g : Bytes) (p : Bool) (words : List Bytes), Gap c g () →
    (p = true → g = []) → Spec.ValidPhrase words →
    Names c p (g ++ (Spec.printPhrase words ++ t)) words true
  | _, _, [], _, _, h => absurd rfl h.1
  | g, p, [x], hg, hp, h => by
    unfold Spec.printPhrase Spec.printWord
    split
    · rename_i hx
      simp only [Bool.and_eq_true, bne_iff_ne, List.all_eq_true, Bool.not_eq_true'] at hx
      have := Names.atom (c := c) (s := []) hg hp hx.1.1 hx.1.2 (fun _ => looksEncoded_iff.mp hx.2) ht
        (fun _ => stops_nil) .nil
      simpa using this
    · have := Names.quoted (c := c) (s := []) hg hp (quote_quoted (h.2 x (by simp))) ht .nil
      simpa using this
  | g, p, x :: y :: xs, hg, hp, h => by
    have ih := printPhrase_names ht [] true (y :: xs) optCfws_nil (by simp)
      ⟨by simp, fun z hz => h.2 z (List.mem_cons_of_mem _ hz)⟩
    unfold Spec.printPhrase Spec.printWord
    split
    · rename_i hx
      simp only [Bool.and_eq_true, bne_iff_ne, List.all_eq_true, Bool.not_eq_true'] at hx
      have := Names.atom (c := c) hg hp hx.1.1 hx.1.2 (fun _ => looksEncoded_iff.mp hx.2) gap_space
        (by simp) ih
      simpa using this
    · have := Names.quoted (c := c) hg hp (quote_quoted (h.2 x (by simp))) gap_space ih
      simpa using this

theorem printDomain_grammar {x : Bytes} (h : Spec.dotAtomB x = true ∨ ∀ b ∈ x, Spec.dtext b = true) :
    Spec.DomainOf (Spec.CommentN c.stack) c.feat.compatibilityFixes (Spec.printDomain x) x := by
  unfold Spec.printDomain
  split
  · rename_i hx
    exact .inl ⟨[], x, (), rfl, optCfws_nil, x, [], x, by simp, dotAtomText_lax (dotAtomB_text hx), [], [], (), rfl,
      optCfws_nil, rfl, rfl⟩
  · rename_i hx
    have h := h.resolve_left hx
    have hs : ∃ vs, Gram.star LiteralPart x vs ∧ vs.flatten = x := by
      by_cases hne : x = []
      · exact ⟨[], hne ▸ .nil, by simp [hne]⟩
      · refine ⟨[x], ?_, by simp⟩
        have := Gram.star.cons (G := LiteralPart) (w₁ := x) (a := x)
          ⟨[], x, none, rfl, .inl ⟨rfl, rfl⟩, rfl, hne, h⟩ .nil
        simpa using this
    obtain ⟨vs, hs, hv⟩ := hs
    exact .inr ⟨[], _, (), rfl, optCfws_nil, _, x ++ ([] ++ (b! "]" ++ [])), (), by simp, rfl, x, _, vs, rfl, hs, [],
      _, none, rfl, .inl ⟨rfl, rfl⟩, _, _, (), rfl, rfl, [], [], (), rfl, optCfws_nil, rfl, hv.symm⟩

theorem printLocal_grammar {g x : Bytes} (hg : Gap c g ()) (h : Spec.Printable x) :
    Spec.LocalPartOf (Spec.CommentN c.stack) c.feat.compatibilityFixes (g ++ Spec.printLocal x) x := by
  unfold Spec.printLocal
  split
  · rename_i hx
    simp only [Bool.and_eq_true, Bool.not_eq_true'] at hx
    exact .inl ⟨g, x, (), rfl, hg, x, [], x, by simp, dotAtomText_lax (dotAtomB_text hx.1), [], [], (), rfl,
      optCfws_nil, rfl, rfl⟩
  · have := quote_grammar hg optCfws_nil h
    rw [List.append_nil] at this
    exact .inr this

theorem printAddress_grammar {a : EmailAddress} (h : Spec.ValidAddress a) :
    Spec.AddrSpecOf (Spec.CommentN c.stack) c.feat.compatibilityFixes (Spec.printEmailAddress a) a := by
  have hl := printLocal_grammar (c := c) (g := []) optCfws_nil h.1
  unfold Spec.printEmailAddress
  rw [List.append_assoc]
  exact gram_then hl (gram_then (a := ()) rfl (gram_last (printDomain_grammar h.2) rfl))

theorem printMailbox_layout {g : Bytes} {m : Mailbox} (hg : Gap c g ()) (h : Spec.ValidMailbox m) :
    MailboxL c (g ++ Spec.printMailbox m) m := by
  obtain ⟨name, a⟩ := m
  obtain ⟨h1, h2⟩ := h
  unfold Spec.printMailbox
  cases name with
  | some words =>
    have hn := printPhrase_names (c := c) gap_space g false words hg (by simp) (h1 words rfl)
    have ha : Spec.AngleAddrOf (Spec.CommentN c.stack) c.feat.compatibilityFixes
        ([] ++ (b! "<" ++ (Spec.printEmailAddress a ++ (b! ">" ++ ([] ++ []))))) a :=
      gram_then optCfws_nil (gram_then (a := ()) rfl (gram_then (printAddress_grammar h2)
        (gram_then (a := ()) rfl (gram_then optCfws_nil ⟨rfl, rfl⟩))))
    have := MailboxL.named hn (h1 words rfl).1 ha (fun _ => ⟨_, rfl⟩)
    simpa using this
  | none =>
    have hd := printDomain_grammar (c := c) h2.2
    have hl := printLocal_grammar (c := c) hg h2.1
    dsimp only
    unfold Spec.printEmailAddress
    rw [show g ++ (Spec.printLocal a.localPart ++ b! "@" ++ Spec.printDomain a.domain) =
      g ++ Spec.printLocal a.localPart ++ 64 :: Spec.printDomain a.domain by simp]
    rcases hl with hl | hl
    · by_cases hx : Spec.looksEncoded a.localPart = true
      · exfalso
        unfold Spec.printLocal at hl
        rw [hx, Bool.not_true, Bool.and_false, if_neg (by simp)] at hl
        obtain ⟨g', _, _, e, hg', w, t, v, rfl, hw, -⟩ := hl
        obtain ⟨b, t', rfl, hb⟩ := dotAtomText_head hw
        have e1 := skipCfws_append (c := c) (r := Spec.quote a.localPart) hg
          (cfwsEnd_cons (by decide) (by decide) (by decide))
        obtain ⟨k1, k2, k3⟩ := atext_end b hb
        have e2 := skipCfws_append (c := c) (r := b :: t' ++ t) hg' (cfwsEnd_cons k1 k2 k3)
        rw [← e, e1] at e2
        simp only [Spec.quote, Outcome.ok.injEq, List.cons_append, List.nil_append, List.cons.injEq] at e2
        rw [← e2.1] at hb
        exact absurd hb (by decide)
      · exact .dotAtom hl (fun _ => looksEncoded_iff.mp (by simpa using hx)) hd
    · exact .quoted hl hd

theorem printDomain_last (x : Bytes) : ∃ u b, Spec.printDomain x = u ++ [b] ∧ Spec.wsp b = false := by
  unfold Spec.printDomain
  split
  · rename_i h
    have key : ∀ (x : Bytes) (seen : Bool), Spec.dotAtomFrom seen x = true → x ≠ [] →
        ∃ u b, x = u ++ [b] ∧ Spec.wsp b = false := by
      intro x
      induction x with
      | nil => intro seen _ h; exact absurd rfl h
      | cons b x ih =>
        intro seen h _
        unfold Spec.dotAtomFrom at h
        cases x with
        | nil =>
          refine ⟨[], b, rfl, ?_⟩
          split at h
          · rename_i hb
            rw [show b = 46 by simpa using hb]
            decide
          · simp only [Bool.and_eq_true] at h
            exact (atext_end b h.1).1
        | cons y x =>
          have : ∃ seen, Spec.dotAtomFrom seen (y :: x) = true := by
            split at h
            · simp only [Bool.and_eq_true] at h
              exact ⟨_, h.2⟩
            · simp only [Bool.and_eq_true] at h
              exact ⟨_, h.2⟩
          obtain ⟨seen', h'⟩ := this
          obtain ⟨u, b', e, hb⟩ := ih seen' h' (by simp)
          exact ⟨b :: u, b', by simp [e], hb⟩
    refine key x false h ?_
    rintro rfl
    cases h
  · exact ⟨_, 93, rfl, by decide⟩

theorem printMailbox_last (m : Mailbox) : ∃ u b, Spec.printMailbox m = u ++ [b] ∧ Spec.wsp b = false := by
  unfold Spec.printMailbox
  split
  · obtain ⟨u, b, e, hb⟩ := printDomain_last m.address.domain
    exact ⟨Spec.printLocal m.address.localPart ++ b! "@" ++ u, b, by simp [Spec.printEmailAddress, e], hb⟩
  · exact ⟨_, 62, rfl, by decide⟩

theorem printAddress_last (a : Address) : ∃ u b, Spec.printAddress a = u ++ [b] ∧ Spec.wsp b = false := by
  cases a with
  | mailbox m => exact printMailbox_last m
  | group n ms => exact ⟨_, 59, rfl, by decide⟩

theorem printCommas_layout {α : Type} {L : Bytes → α → Prop} {p : α → Bytes} {ok : α → Prop}
    (hp : ∀ g a, Gap c g () → ok a → L (g ++ p a) a) : ∀ (g : Bytes) (as : List α), Gap c g () → as ≠ [] →
      (∀ a ∈ as, ok a) → Commas L (g ++ Spec.printCommas (as.map p)) as
  | _, [], _, h, _ => absurd rfl h
  | g, [a], hg, _, h => .one (hp g a hg (h a (by simp)))
  | g, a :: b :: as, hg, _, h => by
    have ih := printCommas_layout hp (b! " ") (b :: as) gap_space (by simp)
      fun x hx => h x (List.mem_cons_of_mem _ hx)
    have := Commas.cons (hp g a hg (h a (by simp))) ih
    simpa [Spec.printCommas] using this

theorem printCommas_last {α : Type} {p : α → Bytes} (hp : ∀ a, ∃ u b, p a = u ++ [b] ∧ Spec.wsp b = false) :
    ∀ as : List α, as ≠ [] → ∃ u b, Spec.printCommas (as.map p) = u ++ [b] ∧ Spec.wsp b = false
  | [], h => absurd rfl h
  | [a], _ => hp a
  | a :: b :: as, _ => by
    obtain ⟨u, x, e, hx⟩ := printCommas_last hp (b :: as) (by simp)
    exact ⟨p a ++ b! ", " ++ u, x, by simp only [List.map_cons] at e; simp [Spec.printCommas, e], hx⟩

theorem gap_optFws {f white : Bytes} (hf : Spec.OptFws f white) : Gap c f () := by
  obtain ⟨o, -, ⟨rfl, rfl⟩ | ⟨v, rfl, hf⟩⟩ := hf
  · exact optCfws_nil
  · exact ⟨some (), .inr ⟨(), rfl, .inr ⟨v, hf⟩⟩⟩

/-- A printed word does not look like an encoded word. -/
theorem printWord_notEncoded {g w t f white x v s : Bytes} (hg : Gap c g ()) (ht : Stops Spec.atext t)
    (e : g ++ (Spec.printWord w ++ t) = f ++ (x ++ s)) (hf : Spec.OptFws f white) (hx : Spec.EncodedWord c x v) :
    False := by
  have hw : ∃ y t', Spec.printWord w ++ t = y ++ t' ∧ y ≠ [] ∧
      (∀ b ∈ y, Spec.atext b = true ∨ b = 34) ∧ ¬ [61, 63] <+: y ∧ (y = [61] → Stops (· == 63) t') := by
    unfold Spec.printWord
    split
    · rename_i hx
      simp only [Bool.and_eq_true, bne_iff_ne, List.all_eq_true, Bool.not_eq_true'] at hx
      refine ⟨w, t, rfl, hx.1.1, fun b hb => .inl (hx.1.2 b hb), looksEncoded_iff.mp hx.2, fun _ => ?_⟩
      have key : ∀ b : UInt8, Spec.atext b = false → (b == 63) = false := by decide +kernel
      exact stops_mono ht key
    · refine ⟨[34], _, by simp only [Spec.quote, List.append_assoc]; rfl, by simp, by simp, ?_, by simp⟩
      rintro ⟨t, e⟩
      simp at e
  obtain ⟨y, t, ey, hne, hy, hny, hy1⟩ := hw
  obtain ⟨xt, rfl⟩ := encodedWord_head hx
  -- both texts are read past the white space
  have e2 := skipCfws_append (c := c) (r := 61 :: 63 :: xt ++ s) (gap_optFws hf)
    (cfwsEnd_cons (by decide) (by decide) (by decide))
  have e1 : skipCfws c (g ++ (y ++ t)) = .ok (y ++ t) := by
    refine skipCfws_append hg ?_
    cases y with
    | nil => exact absurd rfl hne
    | cons b y =>
      obtain ⟨k1, k2, k3, -⟩ := word_start (hy b (by simp))
      exact cfwsEnd_cons k1 k2 k3
  rw [ey] at e
  rw [← e, e1] at e2
  simp only [Outcome.ok.injEq, List.cons_append] at e2
  match y, hne with
  | [b], _ =>
    simp only [List.cons_append, List.nil_append, List.cons.injEq] at e2
    obtain ⟨rfl, rfl⟩ := e2
    exact absurd (stops_cons.mp (hy1 rfl)) (by decide)
  | b :: b' :: y, _ =>
    simp only [List.cons_append, List.cons.injEq] at e2
    obtain ⟨rfl, rfl, -⟩ := e2
    exact hny ⟨y, rfl⟩

theorem printPhrase_groupName {g : Bytes} {words : List Bytes} (hg : Gap c g ()) (h : Spec.ValidPhrase words) :
    GroupName c (g ++ Spec.printPhrase words) words := by
  have hn := printPhrase_names (c := c) optCfws_nil g false words hg (by simp) h
  rw [List.append_nil] at hn
  refine ⟨h.1, ⟨true, hn⟩, ?_⟩
  intro f white x v s e hf hx hm
  exfalso
  match words, h with
  | [], h => exact absurd rfl h.1
  | [w], _ => exact printWord_notEncoded (t := []) hg stops_nil (by simpa [Spec.printPhrase] using e) hf hx
  | w :: w' :: ws, _ =>
    exact printWord_notEncoded (t := b! " " ++ Spec.printPhrase (w' :: ws)) hg (stops_cons.mpr (by decide))
      (by simpa [Spec.printPhrase] using e) hf hx

theorem printAddress_layout {g : Bytes} {a : Address} (hg : Gap c g ()) (h : Spec.ValidAddressOrGroup a) :
    AddressL c (g ++ Spec.printAddress a) a := by
  cases a with
  | mailbox m => exact .mailbox (printMailbox_layout hg h)
  | group n ms =>
    obtain ⟨hn, hm⟩ := h
    have hn' := printPhrase_groupName hg hn
    unfold Spec.printAddress
    by_cases hms : ms = []
    · subst hms
      have := AddressL.emptyGroup hn' gap_space optCfws_nil
      simpa [Spec.printCommas] using this
    · have hl := printCommas_layout (c := c) (p := Spec.printMailbox) (fun g a hg h => printMailbox_layout hg h)
        (b! " ") ms gap_space hms hm
      have := AddressL.group hn' hl optCfws_nil
      simpa using this

end EmailParser
