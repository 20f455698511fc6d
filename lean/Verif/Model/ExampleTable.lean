import Verif.Model.Rust
/-! # The example table of the repository -/

namespace Chanoma

/-- `/repo/examples/file/table.csv:1-433`, the whole text (transcribed by a script). -/
def exampleCsv : Str := List.flatten [
  c! "from,to\n~,~\n˗,-\n֊,-\n‐,-\n‑,-\n‒,-\n–,-\n",
  c! "—,ー\n―,ー\n’,'\n”,\"\"\"\"\n⁃,-\n⁻,-\n₋,-\n−,-\n",
  c! "∼,~\n∾,~\n─,ー\n━,ー\n〜,~\n〰,~\n㌀,アパート\n㌁,アルファ\n",
  c! "㌂,アンペア\n㌃,アール\n㌄,イニング\n㌅,インチ\n㌆,ウォン\n㌇,エスクード\n㌈,エーカー\n㌉,オンス\n",
  c! "㌊,オーム\n㌋,カイリ\n㌌,カラット\n㌍,カロリー\n㌎,ガロン\n㌏,ガンマ\n㌐,ギガ\n㌑,ギニー\n",
  c! "㌒,キュリー\n㌓,ギルダー\n㌔,キロ\n㌕,キログラム\n㌖,キロメートル\n㌗,キロワット\n㌘,グラム\n㌙,グラムトン\n",
  c! "㌚,クルゼイロ\n㌛,クローネ\n㌜,ケース\n㌝,コルナ\n㌞,コーポ\n㌟,サイクル\n㌠,サンチーム\n㌡,シリング\n",
  c! "㌢,センチ\n㌣,セント\n㌤,ダース\n㌥,デシ\n㌦,ドル\n㌧,トン\n㌨,ナノ\n㌩,ノット\n",
  c! "㌪,ハイツ\n㌫,パーセント\n㌬,パーツ\n㌭,バーレル\n㌮,ピアストル\n㌯,ピクル\n㌰,ピコ\n㌱,ビル\n",
  c! "㌲,ファラッド\n㌳,フィート\n㌴,ブッシェル\n㌵,フラン\n㌶,ヘクタール\n㌷,ペソ\n㌸,ペニヒ\n㌹,ヘルツ\n",
  c! "㌺,ペンス\n㌻,ページ\n㌼,ベータ\n㌽,ポイント\n㌾,ボルト\n㌿,ホン\n㍀,ポンド\n㍁,ホール\n",
  c! "㍂,ホーン\n㍃,マイクロ\n㍄,マイル\n㍅,マッハ\n㍆,マルク\n㍇,マンション\n㍈,ミクロン\n㍉,ミリ\n",
  c! "㍊,ミリバール\n㍋,メガ\n㍌,メガトン\n㍍,メートル\n㍎,ヤード\n㍏,ヤール\n㍐,ユアン\n㍑,リットル\n",
  c! "㍒,リラ\n㍓,ルピー\n㍔,ルーブル\n㍕,レム\n㍖,レントゲン\n㍗,ワット\n㍘,0点\n㍙,1点\n",
  c! "㍚,2点\n㍛,3点\n㍜,4点\n㍝,5点\n㍞,6点\n㍟,7点\n㍠,8点\n㍡,9点\n",
  c! "㍢,10点\n㍣,11点\n㍤,12点\n㍥,13点\n㍦,14点\n㍧,15点\n㍨,16点\n㍩,17点\n",
  c! "㍪,18点\n㍫,19点\n㍬,20点\n㍭,21点\n㍮,22点\n㍯,23点\n㍰,24点\n㍱,hPa\n",
  c! "㍲,da\n㍳,AU\n㍴,bar\n㍵,oV\n㍶,pc\n㍷,dm\n㍸,dm2\n㍹,dm3\n",
  c! "㍺,IU\n㍻,平成\n㍼,昭和\n㍽,大正\n㍾,明治\n㍿,株式会社\n㎀,pA\n㎁,nA\n",
  c! "㎂,µA\n㎃,mA\n㎄,kA\n㎅,KB\n㎆,MB\n㎇,GB\n㎈,cal\n㎉,kcal\n",
  c! "㎊,pF\n㎋,nF\n㎌,µF\n㎍,µg\n㎎,mg\n㎏,kg\n㎐,Hz\n㎑,kHz\n",
  c! "㎒,MHz\n㎓,GHz\n㎔,THz\n㎕,µl\n㎖,ml\n㎗,dl\n㎘,kl\n㎙,fm\n",
  c! "㎚,nm\n㎛,µm\n㎜,mm\n㎝,cm\n㎞,km\n㎟,mm\n㎠,cm2\n㎡,m2\n",
  c! "㎢,km2\n㎣,cm3\n㎣,mm3\n㎥,m3\n㎦,km3\n㎧,m/s\n㎨,m/s2\n㎩,Pa\n",
  c! "㎪,kPa\n㎫,MPa\n㎬,GPa\n㎭,rad\n㎮,rad/s\n㎯,rad/s2\n㎰,ps\n㎱,ns\n",
  c! "㎲,µs\n㎳,ms\n㎴,pV\n㎵,nV\n㎶,µV\n㎷,mV\n㎸,kV\n㎹,MV\n",
  c! "㎺,pW\n㎻,nW\n㎼,µW\n㎽,mW\n㎾,kW\n㎿,MW\n㏀,kΩ\n㏁,MΩ\n",
  c! "㏂,a.m.\n㏃,Bq\n㏄,cc\n㏅,cd\n㏆,C/kg\n㏇,Co.\n㏈,dB\n㏉,Gy\n",
  c! "㏊,ha\n㏋,HP\n㏌,in\n㏍,K.\n㏎,KM\n㏏,kt\n㏐,lm\n㏑,ln\n",
  c! "㏒,log\n㏓,lx\n㏔,mb\n㏕,mil\n㏖,mol\n㏗,pH\n㏘,p.m.\n㏙,ppm\n",
  c! "㏚,PR\n㏛,sr\n㏜,Sv\n㏝,Wb\n㏞,V/m\n㏟,A/m\n㏠,1日\n㏡,2日\n",
  c! "㏢,3日\n㏣,4日\n㏤,5日\n㏥,6日\n㏦,7日\n㏧,8日\n㏨,9日\n㏩,10日\n",
  c! "㏪,11日\n㏫,12日\n㏬,13日\n㏭,14日\n㏮,15日\n㏯,16日\n㏰,17日\n㏱,18日\n",
  c! "㏲,19日\n㏳,20日\n㏴,21日\n㏵,22日\n㏶,23日\n㏷,24日\n㏸,25日\n㏹,26日\n",
  c! "㏺,27日\n㏻,28日\n㏼,29日\n㏽,30日\n㏾,31日\n㏿,gal\n﹣,ー\n！,!\n",
  c! "＃,#\n＄,$\n％,%\n＆,&\n（,(\n）,)\n＊,*\n＋,+\n",
  c! "，,\",\"\n－,ー\n．,.\n／,/\n０,0\n１,1\n２,2\n３,3\n",
  c! "４,4\n５,5\n６,6\n７,7\n８,8\n９,9\n：,:\n；,;\n",
  c! "＜,<\n＝,=\n＞,>\n？,?\n＠,@\nＡ,A\nＢ,B\nＣ,C\n",
  c! "Ｄ,D\nＥ,E\nＦ,F\nＧ,G\nＨ,H\nＩ,I\nＪ,J\nＫ,K\n",
  c! "Ｌ,L\nＭ,M\nＮ,N\nＯ,O\nＰ,P\nＱ,Q\nＲ,R\nＳ,S\n",
  c! "Ｔ,T\nＵ,U\nＶ,V\nＷ,W\nＸ,X\nＹ,Y\nＺ,Z\n［,[\n",
  c! "＼,\\\n］,]\n＾,^\n＿,_\n｀,`\nａ,a\nｂ,b\nｃ,c\n",
  c! "ｄ,d\nｅ,e\nｆ,f\nｇ,g\nｈ,h\nｉ,i\nｊ,j\nｋ,k\n",
  c! "ｌ,l\nｍ,m\nｎ,n\nｏ,o\nｐ,p\nｑ,q\nｒ,r\nｓ,s\n",
  c! "ｔ,t\nｕ,u\nｖ,v\nｗ,w\nｘ,x\nｙ,y\nｚ,z\n｛,{\n",
  c! "｜,|\n｝,}\n～,~\n｡,。\n｢,「\n｣,」\n､,、\n･,・\n",
  c! "ｦ,ヲ\nｧ,ァ\nｨ,ィ\nｩ,ゥ\nｪ,ェ\nｫ,ォ\nｬ,ャ\nｭ,ュ\n",
  c! "ｮ,ョ\nｯ,ッ\nｰ,ー\nｱ,ア\nｲ,イ\nｳ,ウ\nｴ,エ\nｵ,オ\n",
  c! "ｶ,カ\nｷ,キ\nｸ,ク\nｹ,ケ\nｺ,コ\nｻ,サ\nｼ,シ\nｽ,ス\n",
  c! "ｾ,セ\nｿ,ソ\nﾀ,タ\nﾁ,チ\nﾂ,ツ\nﾃ,テ\nﾄ,ト\nﾅ,ナ\n",
  c! "ﾆ,ニ\nﾇ,ヌ\nﾈ,ネ\nﾉ,ノ\nﾊ,ハ\nﾋ,ヒ\nﾌ,フ\nﾍ,ヘ\n",
  c! "ﾎ,ホ\nﾏ,マ\nﾐ,ミ\nﾑ,ム\nﾒ,メ\nﾓ,モ\nﾔ,ヤ\nﾕ,ユ\n",
  c! "ﾖ,ヨ\nﾗ,ラ\nﾘ,リ\nﾙ,ル\nﾚ,レ\nﾛ,ロ\nﾜ,ワ\nﾝ,ン\n",
  c! "\n"
]

end Chanoma
