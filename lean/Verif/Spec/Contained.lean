import Verif.Spec.Cut
/-! # Specification: what becomes of a part of a text -/

namespace Chanoma

/-- The last character of `a` and the first of `b` compose to `z`. -/
def Composes (a b : Str) (z : Char) : Prop :=
  ∃ x y, a.getLast? = some x ∧ b.head? = some y ∧ voiced x y = some z

/-- How neologdn puts together the results `oa` and `ob` of two texts `a` and `b`. -/
inductive Joined (a b oa ob : Str) : Str → Prop
  /-- a kana and a sound mark become one character -/
  | compose (z : Char) : Composes oa ob z → Joined a b oa ob (oa.dropLast ++ z :: ob.tail)
  /-- of two prolonged sound marks one stays -/
  | choonpu : (a.map neologdnFold).getLast? = some 'ー' → (b.map neologdnFold).head? = some 'ー' →
      Joined a b oa ob (oa ++ ob.tail)
  /-- spaces between ASCII alphanumerics become one space -/
  | space : JoinedBySpace (a.map neologdnFold) (b.map neologdnFold) → Joined a b oa ob (oa ++ ' ' :: ob)
  /-- nothing happens -/
  | plain : CutAt a b .neologdn → Joined a b oa ob (oa ++ ob)

/-- The modifiers other than neologdn and the ligature translator. -/
def ModifierKind.IsPlain : ModifierKind → Prop
  | .neologdn _ | .ligatureTranslator _ => False
  | _ => True

end Chanoma
