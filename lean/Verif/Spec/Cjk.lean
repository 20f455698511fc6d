import Verif.Model.CharactersSet
/-! # Specification: the CJK compatibility squares U+3300..U+33FF -/

namespace Chanoma

/-- The compatibility expansions (NFKC, Unicode 14.0) of U+3300..U+33FF in code point order, not
taken from the repository, with U+03BC and U+2215 written as `µ` (U+00B5) and `/`. -/
def squareExpansions : List Str := [
  c! "アパート", c! "アルファ", c! "アンペア", c! "アール", c! "イニング", c! "インチ", c! "ウォン", c! "エスクード", -- U+3300
  c! "エーカー", c! "オンス", c! "オーム", c! "カイリ", c! "カラット", c! "カロリー", c! "ガロン", c! "ガンマ", -- U+3308
  c! "ギガ", c! "ギニー", c! "キュリー", c! "ギルダー", c! "キロ", c! "キログラム", c! "キロメートル", c! "キロワット", -- U+3310
  c! "グラム", c! "グラムトン", c! "クルゼイロ", c! "クローネ", c! "ケース", c! "コルナ", c! "コーポ", c! "サイクル", -- U+3318
  c! "サンチーム", c! "シリング", c! "センチ", c! "セント", c! "ダース", c! "デシ", c! "ドル", c! "トン", -- U+3320
  c! "ナノ", c! "ノット", c! "ハイツ", c! "パーセント", c! "パーツ", c! "バーレル", c! "ピアストル", c! "ピクル", -- U+3328
  c! "ピコ", c! "ビル", c! "ファラッド", c! "フィート", c! "ブッシェル", c! "フラン", c! "ヘクタール", c! "ペソ", -- U+3330
  c! "ペニヒ", c! "ヘルツ", c! "ペンス", c! "ページ", c! "ベータ", c! "ポイント", c! "ボルト", c! "ホン", -- U+3338
  c! "ポンド", c! "ホール", c! "ホーン", c! "マイクロ", c! "マイル", c! "マッハ", c! "マルク", c! "マンション", -- U+3340
  c! "ミクロン", c! "ミリ", c! "ミリバール", c! "メガ", c! "メガトン", c! "メートル", c! "ヤード", c! "ヤール", -- U+3348
  c! "ユアン", c! "リットル", c! "リラ", c! "ルピー", c! "ルーブル", c! "レム", c! "レントゲン", c! "ワット", -- U+3350
  c! "0点", c! "1点", c! "2点", c! "3点", c! "4点", c! "5点", c! "6点", c! "7点", -- U+3358
  c! "8点", c! "9点", c! "10点", c! "11点", c! "12点", c! "13点", c! "14点", c! "15点", -- U+3360
  c! "16点", c! "17点", c! "18点", c! "19点", c! "20点", c! "21点", c! "22点", c! "23点", -- U+3368
  c! "24点", c! "hPa", c! "da", c! "AU", c! "bar", c! "oV", c! "pc", c! "dm", -- U+3370
  c! "dm2", c! "dm3", c! "IU", c! "平成", c! "昭和", c! "大正", c! "明治", c! "株式会社", -- U+3378
  c! "pA", c! "nA", c! "µA", c! "mA", c! "kA", c! "KB", c! "MB", c! "GB", -- U+3380
  c! "cal", c! "kcal", c! "pF", c! "nF", c! "µF", c! "µg", c! "mg", c! "kg", -- U+3388
  c! "Hz", c! "kHz", c! "MHz", c! "GHz", c! "THz", c! "µl", c! "ml", c! "dl", -- U+3390
  c! "kl", c! "fm", c! "nm", c! "µm", c! "mm", c! "cm", c! "km", c! "mm2", -- U+3398
  c! "cm2", c! "m2", c! "km2", c! "mm3", c! "cm3", c! "m3", c! "km3", c! "m/s", -- U+33A0
  c! "m/s2", c! "Pa", c! "kPa", c! "MPa", c! "GPa", c! "rad", c! "rad/s", c! "rad/s2", -- U+33A8
  c! "ps", c! "ns", c! "µs", c! "ms", c! "pV", c! "nV", c! "µV", c! "mV", -- U+33B0
  c! "kV", c! "MV", c! "pW", c! "nW", c! "µW", c! "mW", c! "kW", c! "MW", -- U+33B8
  c! "kΩ", c! "MΩ", c! "a.m.", c! "Bq", c! "cc", c! "cd", c! "C/kg", c! "Co.", -- U+33C0
  c! "dB", c! "Gy", c! "ha", c! "HP", c! "in", c! "KK", c! "KM", c! "kt", -- U+33C8
  c! "lm", c! "ln", c! "log", c! "lx", c! "mb", c! "mil", c! "mol", c! "PH", -- U+33D0
  c! "p.m.", c! "PPM", c! "PR", c! "sr", c! "Sv", c! "Wb", c! "V/m", c! "A/m", -- U+33D8
  c! "1日", c! "2日", c! "3日", c! "4日", c! "5日", c! "6日", c! "7日", c! "8日", -- U+33E0
  c! "9日", c! "10日", c! "11日", c! "12日", c! "13日", c! "14日", c! "15日", c! "16日", -- U+33E8
  c! "17日", c! "18日", c! "19日", c! "20日", c! "21日", c! "22日", c! "23日", c! "24日", -- U+33F0
  c! "25日", c! "26日", c! "27日", c! "28日", c! "29日", c! "30日", c! "31日", c! "gal" -- U+33F8
]

/-- The characters of the block. -/
def IsSquare (c : Char) : Prop := 0x3300 ≤ c.toNat ∧ c.toNat ≤ 0x33FF

instance (c : Char) : Decidable (IsSquare c) :=
  inferInstanceAs (Decidable (0x3300 ≤ c.toNat ∧ c.toNat ≤ 0x33FF))

/-- The expansion of a square by Unicode. -/
def unicodeExpansion (c : Char) : Str := squareExpansions.getD (c.toNat - 0x3300) []

/-- The expansions listed in the repository: those of Unicode, except for six squares. -/
def listedExpansions (c : Char) : List Str :=
  if ¬ IsSquare c then []
  else if c = '\u339f' then [c! "mm"]                -- SQUARE MM SQUARED, should be mm2
  else if c = '\u33a3' then [c! "mm3", c! "cm3"]     -- SQUARE MM CUBED, should be mm3 only
  else if c = '\u33a4' then []                       -- SQUARE CM CUBED, should be cm3
  else if c = '\u33cd' then [c! "K."]                -- SQUARE KK
  else if c = '\u33d7' then [c! "pH"]                -- SQUARE PH
  else if c = '\u33d9' then [c! "ppm"]               -- SQUARE PPM
  else [unicodeExpansion c]

/-- What a square becomes in a converter: the first character of its first listed expansion. -/
def squareHead (c : Char) : Char :=
  match listedExpansions c with
  | (d :: _) :: _ => d
  | _ => c

end Chanoma
