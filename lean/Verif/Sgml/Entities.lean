/-
What the entities of include/stdex/sgml_unicode.hpp stand for, compared with lists that do not come from it: the character entity references of
HTML 4, the named character references of HTML, the letters and diacritical marks of Unicode and the Greek alphabet.
(The lists were written from the tables of Python's html.entities and unicodedata, not from the header.)
-/
import Verif.Sgml.Decode

namespace Verif.Sgml
open Verif.Str
set_option maxRecDepth 100000

/-! ### The lists -/

/-- The character entity references of HTML 4 (section 24), names and code points, part 0. -/
def html40 : List (String × List Nat) := [
  ("AElig", [198]), ("Aacute", [193]), ("Acirc", [194]), ("Agrave", [192]), ("Alpha", [913]), ("Aring", [197]), ("Atilde", [195]), ("Auml", [196]),
  ("Beta", [914]), ("Ccedil", [199]), ("Chi", [935]), ("Dagger", [8225]), ("Delta", [916]), ("ETH", [208]), ("Eacute", [201]), ("Ecirc", [202]),
  ("Egrave", [200]), ("Epsilon", [917]), ("Eta", [919]), ("Euml", [203]), ("Gamma", [915]), ("Iacute", [205]), ("Icirc", [206]), ("Igrave", [204]),
  ("Iota", [921]), ("Iuml", [207]), ("Kappa", [922]), ("Lambda", [923]), ("Mu", [924]), ("Ntilde", [209]), ("Nu", [925]), ("OElig", [338]),
  ("Oacute", [211]), ("Ocirc", [212]), ("Ograve", [210]), ("Omega", [937]), ("Omicron", [927]), ("Oslash", [216]), ("Otilde", [213]),
  ("Ouml", [214]), ("Phi", [934]), ("Pi", [928]), ("Prime", [8243]), ("Psi", [936]), ("Rho", [929]), ("Scaron", [352]), ("Sigma", [931]),
  ("THORN", [222]), ("Tau", [932]), ("Theta", [920]), ("Uacute", [218]), ("Ucirc", [219]), ("Ugrave", [217]), ("Upsilon", [933]), ("Uuml", [220]),
  ("Xi", [926]), ("Yacute", [221]), ("Yuml", [376]), ("Zeta", [918]), ("aacute", [225]), ("acirc", [226]), ("acute", [180]), ("aelig", [230]),
  ("agrave", [224])]

/-- The character entity references of HTML 4 (section 24), names and code points, part 1. -/
def html41 : List (String × List Nat) := [
  ("alefsym", [8501]), ("alpha", [945]), ("amp", [38]), ("and", [8743]), ("ang", [8736]), ("aring", [229]), ("asymp", [8776]), ("atilde", [227]),
  ("auml", [228]), ("bdquo", [8222]), ("beta", [946]), ("brvbar", [166]), ("bull", [8226]), ("cap", [8745]), ("ccedil", [231]), ("cedil", [184]),
  ("cent", [162]), ("chi", [967]), ("circ", [710]), ("clubs", [9827]), ("cong", [8773]), ("copy", [169]), ("crarr", [8629]), ("cup", [8746]),
  ("curren", [164]), ("dArr", [8659]), ("dagger", [8224]), ("darr", [8595]), ("deg", [176]), ("delta", [948]), ("diams", [9830]), ("divide", [247]),
  ("eacute", [233]), ("ecirc", [234]), ("egrave", [232]), ("empty", [8709]), ("emsp", [8195]), ("ensp", [8194]), ("epsilon", [949]),
  ("equiv", [8801]), ("eta", [951]), ("eth", [240]), ("euml", [235]), ("euro", [8364]), ("exist", [8707]), ("fnof", [402]), ("forall", [8704]),
  ("frac12", [189]), ("frac14", [188]), ("frac34", [190]), ("frasl", [8260]), ("gamma", [947]), ("ge", [8805]), ("gt", [62]), ("hArr", [8660]),
  ("harr", [8596]), ("hearts", [9829]), ("hellip", [8230]), ("iacute", [237]), ("icirc", [238]), ("iexcl", [161]), ("igrave", [236]),
  ("image", [8465]), ("infin", [8734])]

/-- The character entity references of HTML 4 (section 24), names and code points, part 2. -/
def html42 : List (String × List Nat) := [
  ("int", [8747]), ("iota", [953]), ("iquest", [191]), ("isin", [8712]), ("iuml", [239]), ("kappa", [954]), ("lArr", [8656]), ("lambda", [955]),
  ("lang", [9001]), ("laquo", [171]), ("larr", [8592]), ("lceil", [8968]), ("ldquo", [8220]), ("le", [8804]), ("lfloor", [8970]), ("lowast", [8727]),
  ("loz", [9674]), ("lrm", [8206]), ("lsaquo", [8249]), ("lsquo", [8216]), ("lt", [60]), ("macr", [175]), ("mdash", [8212]), ("micro", [181]),
  ("middot", [183]), ("minus", [8722]), ("mu", [956]), ("nabla", [8711]), ("nbsp", [160]), ("ndash", [8211]), ("ne", [8800]), ("ni", [8715]),
  ("not", [172]), ("notin", [8713]), ("nsub", [8836]), ("ntilde", [241]), ("nu", [957]), ("oacute", [243]), ("ocirc", [244]), ("oelig", [339]),
  ("ograve", [242]), ("oline", [8254]), ("omega", [969]), ("omicron", [959]), ("oplus", [8853]), ("or", [8744]), ("ordf", [170]), ("ordm", [186]),
  ("oslash", [248]), ("otilde", [245]), ("otimes", [8855]), ("ouml", [246]), ("para", [182]), ("part", [8706]), ("permil", [8240]), ("perp", [8869]),
  ("phi", [966]), ("pi", [960]), ("piv", [982]), ("plusmn", [177]), ("pound", [163]), ("prime", [8242]), ("prod", [8719]), ("prop", [8733])]

/-- The character entity references of HTML 4 (section 24), names and code points, part 3. -/
def html43 : List (String × List Nat) := [
  ("psi", [968]), ("quot", [34]), ("rArr", [8658]), ("radic", [8730]), ("rang", [9002]), ("raquo", [187]), ("rarr", [8594]), ("rceil", [8969]),
  ("rdquo", [8221]), ("real", [8476]), ("reg", [174]), ("rfloor", [8971]), ("rho", [961]), ("rlm", [8207]), ("rsaquo", [8250]), ("rsquo", [8217]),
  ("sbquo", [8218]), ("scaron", [353]), ("sdot", [8901]), ("sect", [167]), ("shy", [173]), ("sigma", [963]), ("sigmaf", [962]), ("sim", [8764]),
  ("spades", [9824]), ("sub", [8834]), ("sube", [8838]), ("sum", [8721]), ("sup", [8835]), ("sup1", [185]), ("sup2", [178]), ("sup3", [179]),
  ("supe", [8839]), ("szlig", [223]), ("tau", [964]), ("there4", [8756]), ("theta", [952]), ("thetasym", [977]), ("thinsp", [8201]),
  ("thorn", [254]), ("tilde", [732]), ("times", [215]), ("trade", [8482]), ("uArr", [8657]), ("uacute", [250]), ("uarr", [8593]), ("ucirc", [251]),
  ("ugrave", [249]), ("uml", [168]), ("upsih", [978]), ("upsilon", [965]), ("uuml", [252]), ("weierp", [8472]), ("xi", [958]), ("yacute", [253]),
  ("yen", [165]), ("yuml", [255]), ("zeta", [950]), ("zwj", [8205]), ("zwnj", [8204])]

@[inherit_doc html40] def html4 : List (String × List Nat) := html40 ++ html41 ++ html42 ++ html43

/-- The named character references of HTML (section 13.5) that HTML 4 lacks and the library knows, names and code points, part 0. -/
def html50 : List (String × List Nat) := [
  ("Abreve", [258]), ("Acy", [1040]), ("Amacr", [256]), ("Aogon", [260]), ("Barwed", [8966]), ("Bcy", [1041]), ("CHcy", [1063]), ("Cacute", [262]),
  ("Cap", [8914]), ("Ccaron", [268]), ("Ccirc", [264]), ("Cdot", [266]), ("Cup", [8915]), ("DJcy", [1026]), ("DScy", [1029]), ("DZcy", [1039]),
  ("Dcaron", [270]), ("Dcy", [1044]), ("Dot", [168]), ("DotDot", [8412]), ("Dstrok", [272]), ("ENG", [330]), ("Ecaron", [282]), ("Ecy", [1069]),
  ("Edot", [278]), ("Emacr", [274]), ("Eogon", [280]), ("Fcy", [1060]), ("GJcy", [1027]), ("Gbreve", [286]), ("Gcedil", [290]), ("Gcirc", [284]),
  ("Gcy", [1043]), ("Gdot", [288]), ("Gg", [8921]), ("Gt", [8811]), ("HARDcy", [1066]), ("Hcirc", [292]), ("Hstrok", [294]), ("IEcy", [1045]),
  ("IJlig", [306]), ("IOcy", [1025]), ("Icy", [1048]), ("Idot", [304]), ("Imacr", [298]), ("Iogon", [302]), ("Itilde", [296]), ("Iukcy", [1030]),
  ("Jcirc", [308]), ("Jcy", [1049]), ("Jsercy", [1032]), ("Jukcy", [1028]), ("KHcy", [1061]), ("KJcy", [1036]), ("Kcedil", [310]), ("Kcy", [1050]),
  ("LJcy", [1033]), ("Lacute", [313]), ("Larr", [8606]), ("Lcaron", [317]), ("Lcedil", [315]), ("Lcy", [1051]), ("Ll", [8920]), ("Lmidot", [319])]

/-- The named character references of HTML (section 13.5) that HTML 4 lacks and the library knows, names and code points, part 1. -/
def html51 : List (String × List Nat) := [
  ("Lstrok", [321]), ("Lt", [8810]), ("Mcy", [1052]), ("NJcy", [1034]), ("Nacute", [323]), ("Ncaron", [327]), ("Ncedil", [325]), ("Ncy", [1053]),
  ("Ocy", [1054]), ("Odblac", [336]), ("Omacr", [332]), ("Pcy", [1055]), ("Racute", [340]), ("Rarr", [8608]), ("Rcaron", [344]), ("Rcedil", [342]),
  ("Rcy", [1056]), ("SHCHcy", [1065]), ("SHcy", [1064]), ("SOFTcy", [1068]), ("Sacute", [346]), ("Scedil", [350]), ("Scirc", [348]), ("Scy", [1057]),
  ("Sub", [8912]), ("Sup", [8913]), ("TSHcy", [1035]), ("TScy", [1062]), ("Tcaron", [356]), ("Tcedil", [354]), ("Tcy", [1058]), ("Tstrok", [358]),
  ("Ubrcy", [1038]), ("Ubreve", [364]), ("Ucy", [1059]), ("Udblac", [368]), ("Umacr", [362]), ("Uogon", [370]), ("Uring", [366]), ("Utilde", [360]),
  ("Vcy", [1042]), ("Vdash", [8873]), ("Verbar", [8214]), ("Vvdash", [8874]), ("Wcirc", [372]), ("YAcy", [1071]), ("YIcy", [1031]), ("YUcy", [1070]),
  ("Ycirc", [374]), ("Ycy", [1067]), ("ZHcy", [1046]), ("Zacute", [377]), ("Zcaron", [381]), ("Zcy", [1047]), ("Zdot", [379]), ("abreve", [259]),
  ("acy", [1072]), ("aleph", [8501]), ("amacr", [257]), ("angmsd", [8737]), ("angsph", [8738]), ("aogon", [261]), ("ap", [8776]), ("ape", [8778])]

/-- The named character references of HTML (section 13.5) that HTML 4 lacks and the library knows, names and code points, part 2. -/
def html52 : List (String × List Nat) := [
  ("apos", [39]), ("ast", [42]), ("bcong", [8780]), ("bcy", [1073]), ("becaus", [8757]), ("bernou", [8492]), ("beth", [8502]), ("blank", [9251]),
  ("blk12", [9618]), ("blk14", [9617]), ("blk34", [9619]), ("block", [9608]), ("bottom", [8869]), ("bowtie", [8904]), ("boxDL", [9559]),
  ("boxDR", [9556]), ("boxDl", [9558]), ("boxDr", [9555]), ("boxH", [9552]), ("boxHD", [9574]), ("boxHU", [9577]), ("boxHd", [9572]),
  ("boxHu", [9575]), ("boxUL", [9565]), ("boxUR", [9562]), ("boxUl", [9564]), ("boxUr", [9561]), ("boxV", [9553]), ("boxVH", [9580]),
  ("boxVL", [9571]), ("boxVR", [9568]), ("boxVh", [9579]), ("boxVl", [9570]), ("boxVr", [9567]), ("boxdL", [9557]), ("boxdR", [9554]),
  ("boxdl", [9488]), ("boxdr", [9484]), ("boxh", [9472]), ("boxhD", [9573]), ("boxhU", [9576]), ("boxhd", [9516]), ("boxhu", [9524]),
  ("boxuL", [9563]), ("boxuR", [9560]), ("boxul", [9496]), ("boxur", [9492]), ("boxv", [9474]), ("boxvH", [9578]), ("boxvL", [9569]),
  ("boxvR", [9566]), ("boxvh", [9532]), ("boxvl", [9508]), ("boxvr", [9500]), ("bprime", [8245]), ("breve", [728]), ("bsim", [8765]),
  ("bsime", [8909]), ("bsol", [92]), ("bump", [8782]), ("bumpe", [8783]), ("cacute", [263]), ("caret", [8257]), ("caron", [711])]

/-- The named character references of HTML (section 13.5) that HTML 4 lacks and the library knows, names and code points, part 3. -/
def html53 : List (String × List Nat) := [
  ("ccaron", [269]), ("ccirc", [265]), ("cdot", [267]), ("chcy", [1095]), ("check", [10003]), ("cir", [9675]), ("cire", [8791]), ("colon", [58]),
  ("colone", [8788]), ("comma", [44]), ("commat", [64]), ("comp", [8705]), ("compfn", [8728]), ("conint", [8750]), ("coprod", [8720]),
  ("copysr", [8471]), ("cross", [10007]), ("cuepr", [8926]), ("cuesc", [8927]), ("cularr", [8630]), ("curarr", [8631]), ("cuvee", [8910]),
  ("cuwed", [8911]), ("daleth", [8504]), ("dash", [8208]), ("dashv", [8867]), ("dblac", [733]), ("dcaron", [271]), ("dcy", [1076]),
  ("dharl", [8643]), ("dharr", [8642]), ("diam", [8900]), ("die", [168]), ("divonx", [8903]), ("djcy", [1106]), ("dlcorn", [8990]),
  ("dlcrop", [8973]), ("dollar", [36]), ("dot", [729]), ("drcorn", [8991]), ("drcrop", [8972]), ("dscy", [1109]), ("dstrok", [273]),
  ("dtri", [9663]), ("dtrif", [9662]), ("dzcy", [1119]), ("eDot", [8785]), ("ecaron", [283]), ("ecir", [8790]), ("ecolon", [8789]), ("ecy", [1101]),
  ("edot", [279]), ("efDot", [8786]), ("ell", [8467]), ("emacr", [275]), ("emsp13", [8196]), ("emsp14", [8197]), ("eng", [331]), ("eogon", [281]),
  ("epsi", [949]), ("equals", [61]), ("erDot", [8787]), ("esdot", [8784]), ("excl", [33])]

/-- The named character references of HTML (section 13.5) that HTML 4 lacks and the library knows, names and code points, part 4. -/
def html54 : List (String × List Nat) := [
  ("fcy", [1092]), ("female", [9792]), ("ffilig", [64259]), ("fflig", [64256]), ("ffllig", [64260]), ("filig", [64257]), ("flat", [9837]),
  ("fllig", [64258]), ("fork", [8916]), ("frac13", [8531]), ("frac15", [8533]), ("frac16", [8537]), ("frac18", [8539]), ("frac23", [8532]),
  ("frac25", [8534]), ("frac35", [8535]), ("frac38", [8540]), ("frac45", [8536]), ("frac56", [8538]), ("frac58", [8541]), ("frac78", [8542]),
  ("frown", [8994]), ("gE", [8807]), ("gacute", [501]), ("gbreve", [287]), ("gcirc", [285]), ("gcy", [1075]), ("gdot", [289]), ("gel", [8923]),
  ("gimel", [8503]), ("gjcy", [1107]), ("gl", [8823]), ("gnE", [8809]), ("gnsim", [8935]), ("grave", [96]), ("gsim", [8819]), ("hairsp", [8202]),
  ("half", [189]), ("hamilt", [8459]), ("hardcy", [1098]), ("harrw", [8621]), ("hcirc", [293]), ("horbar", [8213]), ("hstrok", [295]),
  ("hybull", [8259]), ("icy", [1080]), ("iecy", [1077]), ("iff", [8660]), ("ijlig", [307]), ("imacr", [299]), ("incare", [8453]), ("inodot", [305]),
  ("intcal", [8890]), ("iocy", [1105]), ("iogon", [303]), ("itilde", [297]), ("iukcy", [1110]), ("jcirc", [309]), ("jcy", [1081]),
  ("jsercy", [1112]), ("jukcy", [1108]), ("kappav", [1008]), ("kcedil", [311]), ("kcy", [1082])]

/-- The named character references of HTML (section 13.5) that HTML 4 lacks and the library knows, names and code points, part 5. -/
def html55 : List (String × List Nat) := [
  ("kgreen", [312]), ("khcy", [1093]), ("kjcy", [1116]), ("lAarr", [8666]), ("lE", [8806]), ("lacute", [314]), ("lagran", [8466]),
  ("larrhk", [8617]), ("larrlp", [8619]), ("larrtl", [8610]), ("lcaron", [318]), ("lcedil", [316]), ("lcub", [123]), ("lcy", [1083]),
  ("ldquor", [8222]), ("leg", [8922]), ("lg", [8822]), ("lhard", [8637]), ("lharu", [8636]), ("lhblk", [9604]), ("ljcy", [1113]), ("lmidot", [320]),
  ("lnE", [8808]), ("lnsim", [8934]), ("lowbar", [95]), ("lpar", [40]), ("lsh", [8624]), ("lsim", [8818]), ("lsqb", [91]), ("lsquor", [8218]),
  ("lstrok", [322]), ("lthree", [8907]), ("ltimes", [8905]), ("ltri", [9667]), ("ltrie", [8884]), ("ltrif", [9666]), ("male", [9794]),
  ("malt", [10016]), ("map", [8614]), ("marker", [9646]), ("mcy", [1084]), ("mid", [8739]), ("minusb", [8863]), ("mldr", [8230]), ("mnplus", [8723]),
  ("models", [8871]), ("mumap", [8888]), ("nVDash", [8879]), ("nVdash", [8878]), ("nacute", [324]), ("nap", [8777]), ("napos", [329]),
  ("natur", [9838]), ("ncaron", [328]), ("ncedil", [326]), ("ncong", [8775]), ("ncy", [1085]), ("nearr", [8599]), ("nequiv", [8802]),
  ("nexist", [8708]), ("nge", [8817]), ("ngt", [8815]), ("nhArr", [8654]), ("nharr", [8622])]

/-- The named character references of HTML (section 13.5) that HTML 4 lacks and the library knows, names and code points, part 6. -/
def html56 : List (String × List Nat) := [
  ("njcy", [1114]), ("nlArr", [8653]), ("nlarr", [8602]), ("nldr", [8229]), ("nle", [8816]), ("nlt", [8814]), ("nltri", [8938]), ("nltrie", [8940]),
  ("nmid", [8740]), ("npar", [8742]), ("npr", [8832]), ("nrArr", [8655]), ("nrarr", [8603]), ("nrtri", [8939]), ("nrtrie", [8941]), ("nsc", [8833]),
  ("nsim", [8769]), ("nsime", [8772]), ("nspar", [8742]), ("nsube", [8840]), ("nsup", [8837]), ("nsupe", [8841]), ("num", [35]), ("numero", [8470]),
  ("numsp", [8199]), ("nvDash", [8877]), ("nvdash", [8876]), ("nwarr", [8598]), ("oS", [9416]), ("oast", [8859]), ("ocir", [8858]), ("ocy", [1086]),
  ("odash", [8861]), ("odblac", [337]), ("odot", [8857]), ("ogon", [731]), ("olarr", [8634]), ("omacr", [333]), ("ominus", [8854]),
  ("orarr", [8635]), ("order", [8500]), ("osol", [8856]), ("par", [8741]), ("pcy", [1087]), ("percnt", [37]), ("period", [46]), ("phiv", [981]),
  ("phmmat", [8499]), ("phone", [9742]), ("planck", [8463]), ("plus", [43]), ("plusb", [8862]), ("plusdo", [8724]), ("pr", [8826]),
  ("prnsim", [8936]), ("prsim", [8830]), ("puncsp", [8200]), ("quest", [63]), ("rAarr", [8667]), ("racute", [341]), ("rarrhk", [8618]),
  ("rarrlp", [8620]), ("rarrtl", [8611]), ("rarrw", [8605])]

/-- The named character references of HTML (section 13.5) that HTML 4 lacks and the library knows, names and code points, part 7. -/
def html57 : List (String × List Nat) := [
  ("rcaron", [345]), ("rcedil", [343]), ("rcub", [125]), ("rcy", [1088]), ("rect", [9645]), ("rhard", [8641]), ("rharu", [8640]), ("rhov", [1009]),
  ("ring", [730]), ("rpar", [41]), ("rsh", [8625]), ("rsqb", [93]), ("rthree", [8908]), ("rtimes", [8906]), ("rtri", [9657]), ("rtrie", [8885]),
  ("rtrif", [9656]), ("rx", [8478]), ("sacute", [347]), ("sc", [8827]), ("sccue", [8829]), ("scedil", [351]), ("scirc", [349]), ("scnsim", [8937]),
  ("scsim", [8831]), ("scy", [1089]), ("sdotb", [8865]), ("semi", [59]), ("setmn", [8726]), ("sext", [10038]), ("sfrown", [8994]), ("sharp", [9839]),
  ("shchcy", [1097]), ("shcy", [1096]), ("sigmav", [962]), ("sime", [8771]), ("smile", [8995]), ("softcy", [1100]), ("sol", [47]), ("spar", [8741]),
  ("sqcap", [8851]), ("sqcup", [8852]), ("sqsub", [8847]), ("sqsube", [8849]), ("sqsup", [8848]), ("sqsupe", [8850]), ("squ", [9633]),
  ("square", [9633]), ("squf", [9642]), ("ssetmn", [8726]), ("ssmile", [8995]), ("sstarf", [8902]), ("star", [9734]), ("starf", [9733]),
  ("subne", [8842]), ("sung", [9834]), ("supne", [8843]), ("target", [8982]), ("tcaron", [357]), ("tcedil", [355]), ("tcy", [1090]),
  ("tdot", [8411]), ("telrec", [8981]), ("thetav", [977])]

/-- The named character references of HTML (section 13.5) that HTML 4 lacks and the library knows, names and code points, part 8. -/
def html58 : List (String × List Nat) := [
  ("thkap", [8776]), ("thksim", [8764]), ("timesb", [8864]), ("top", [8868]), ("tprime", [8244]), ("trie", [8796]), ("tscy", [1094]),
  ("tshcy", [1115]), ("tstrok", [359]), ("twixt", [8812]), ("ubrcy", [1118]), ("ubreve", [365]), ("ucy", [1091]), ("udblac", [369]),
  ("uharl", [8639]), ("uharr", [8638]), ("uhblk", [9600]), ("ulcorn", [8988]), ("ulcrop", [8975]), ("umacr", [363]), ("uogon", [371]),
  ("uplus", [8846]), ("upsi", [965]), ("urcorn", [8989]), ("urcrop", [8974]), ("uring", [367]), ("utilde", [361]), ("utri", [9653]),
  ("utrif", [9652]), ("vArr", [8661]), ("vDash", [8872]), ("varr", [8597]), ("vcy", [1074]), ("vdash", [8866]), ("veebar", [8891]),
  ("vellip", [8942]), ("verbar", [124]), ("vltri", [8882]), ("vprop", [8733]), ("vrtri", [8883]), ("wcirc", [373]), ("wedgeq", [8793]),
  ("wreath", [8768]), ("xdtri", [9661]), ("xutri", [9651]), ("yacy", [1103]), ("ycirc", [375]), ("ycy", [1099]), ("yicy", [1111]), ("yucy", [1102]),
  ("zacute", [378]), ("zcaron", [382]), ("zcy", [1079]), ("zdot", [380]), ("zhcy", [1078])]

@[inherit_doc html50] def html5 : List (String × List Nat) := html50 ++ html51 ++ html52 ++ html53 ++ html54 ++ html55 ++ html56 ++ html57 ++ html58

/-- Entities that mean another character in HTML than in the older ISO 8879 sets: the name, what HTML gives, and what the library gives. -/
def older : List (String × List Nat × List Nat) := [
  ("Upsi", [978], [933]), ("amalg", [10815], [8720]), ("angst", [197], [8491]), ("barwed", [8965], [8892]), ("bepsi", [1014], [8717]),
  ("egs", [10902], [8925]), ("els", [10901], [8924]), ("gammad", [989], [988]), ("ges", [10878], [8805]), ("gne", [10888], [8809]),
  ("gvnE", [8809,65024], [8809]), ("hyphen", [8208], [45]), ("lang", [10216], [9001]), ("les", [10877], [8804]), ("lne", [10887], [8808]),
  ("lozf", [10731], [10022]), ("lvnE", [8808,65024], [8808]), ("nges", [10878,824], [8817]), ("nles", [10877,824], [8816]),
  ("npre", [10927,824], [8928]), ("nsce", [10928,824], [8929]), ("nsubE", [10949,824], [8840]), ("nsupE", [10950,824], [8841]),
  ("ohm", [937], [8486]), ("pre", [10927], [8828]), ("rang", [10217], [9002]), ("rdquor", [8221], [8220]), ("rsquor", [8217], [8216]),
  ("sce", [10928], [8829]), ("squarf", [9642], [9632]), ("subE", [10949], [8838]), ("subnE", [10955], [8842]), ("supE", [10950], [8839]),
  ("supnE", [10956], [8843]), ("vsubnE", [10955,65024], [8842]), ("vsubne", [8842,65024], [8842]), ("vsupnE", [10956,65024], [8843]),
  ("vsupne", [8843,65024], [8843]), ("xcirc", [9711], [9675]), ("xhArr", [10234], [8596]), ("xharr", [10231], [8596]), ("xlArr", [10232], [8656]),
  ("xrArr", [10233], [8658])]

/-- Accents: the name in an entity and the combining mark. -/
def accents : List (String × Nat) := [
  ("acute", 769), ("breve", 774), ("bring", 815), ("caron", 780), ("circ", 770), ("dot", 775), ("grave", 768), ("macr", 772), ("tilde", 771),
  ("uml", 776)]

/-- The letters with an accent that Unicode has as one character: the letter, the mark, the character (UnicodeData, canonical decompositions). -/
def composed : List (Char × Nat × Nat) := [
  ('a', 769, 225), ('a', 774, 259), ('a', 780, 462), ('a', 770, 226), ('a', 775, 551), ('a', 768, 224), ('a', 772, 257), ('a', 771, 227),
  ('a', 776, 228), ('b', 775, 7683), ('c', 769, 263), ('c', 780, 269), ('c', 770, 265), ('c', 775, 267), ('d', 780, 271), ('d', 775, 7691),
  ('e', 769, 233), ('e', 774, 277), ('e', 780, 283), ('e', 770, 234), ('e', 775, 279), ('e', 768, 232), ('e', 772, 275), ('e', 771, 7869),
  ('e', 776, 235), ('f', 775, 7711), ('g', 769, 501), ('g', 774, 287), ('g', 780, 487), ('g', 770, 285), ('g', 775, 289), ('g', 772, 7713),
  ('h', 780, 543), ('h', 770, 293), ('h', 775, 7715), ('h', 776, 7719), ('i', 769, 237), ('i', 774, 301), ('i', 780, 464), ('i', 770, 238),
  ('i', 768, 236), ('i', 772, 299), ('i', 771, 297), ('i', 776, 239), ('j', 780, 496), ('j', 770, 309), ('k', 769, 7729), ('k', 780, 489),
  ('l', 769, 314), ('l', 780, 318), ('m', 769, 7743), ('m', 775, 7745), ('n', 769, 324), ('n', 780, 328), ('n', 775, 7749), ('n', 768, 505),
  ('n', 771, 241), ('o', 769, 243), ('o', 774, 335), ('o', 780, 466), ('o', 770, 244), ('o', 775, 559), ('o', 768, 242), ('o', 772, 333),
  ('o', 771, 245), ('o', 776, 246), ('p', 769, 7765), ('p', 775, 7767), ('r', 769, 341), ('r', 780, 345), ('r', 775, 7769), ('s', 769, 347),
  ('s', 780, 353), ('s', 770, 349), ('s', 775, 7777), ('t', 780, 357), ('t', 775, 7787), ('t', 776, 7831), ('u', 769, 250), ('u', 774, 365),
  ('u', 780, 468), ('u', 770, 251), ('u', 768, 249), ('u', 772, 363), ('u', 771, 361), ('u', 776, 252), ('v', 771, 7805), ('w', 769, 7811),
  ('w', 770, 373), ('w', 775, 7815), ('w', 768, 7809), ('w', 776, 7813), ('x', 775, 7819), ('x', 776, 7821), ('y', 769, 253), ('y', 770, 375),
  ('y', 775, 7823), ('y', 768, 7923), ('y', 772, 563), ('y', 771, 7929), ('y', 776, 255), ('z', 769, 378), ('z', 780, 382), ('z', 770, 7825),
  ('z', 775, 380), ('A', 769, 193), ('A', 774, 258), ('A', 780, 461), ('A', 770, 194), ('A', 775, 550), ('A', 768, 192), ('A', 772, 256),
  ('A', 771, 195), ('A', 776, 196), ('B', 775, 7682), ('C', 769, 262), ('C', 780, 268), ('C', 770, 264), ('C', 775, 266), ('D', 780, 270),
  ('D', 775, 7690), ('E', 769, 201), ('E', 774, 276), ('E', 780, 282), ('E', 770, 202), ('E', 775, 278), ('E', 768, 200), ('E', 772, 274),
  ('E', 771, 7868), ('E', 776, 203), ('F', 775, 7710), ('G', 769, 500), ('G', 774, 286), ('G', 780, 486), ('G', 770, 284), ('G', 775, 288),
  ('G', 772, 7712), ('H', 780, 542), ('H', 770, 292), ('H', 775, 7714), ('H', 776, 7718), ('I', 769, 205), ('I', 774, 300), ('I', 780, 463),
  ('I', 770, 206), ('I', 775, 304), ('I', 768, 204), ('I', 772, 298), ('I', 771, 296), ('I', 776, 207), ('J', 770, 308), ('K', 769, 7728),
  ('K', 780, 488), ('L', 769, 313), ('L', 780, 317), ('M', 769, 7742), ('M', 775, 7744), ('N', 769, 323), ('N', 780, 327), ('N', 775, 7748),
  ('N', 768, 504), ('N', 771, 209), ('O', 769, 211), ('O', 774, 334), ('O', 780, 465), ('O', 770, 212), ('O', 775, 558), ('O', 768, 210),
  ('O', 772, 332), ('O', 771, 213), ('O', 776, 214), ('P', 769, 7764), ('P', 775, 7766), ('R', 769, 340), ('R', 780, 344), ('R', 775, 7768),
  ('S', 769, 346), ('S', 780, 352), ('S', 770, 348), ('S', 775, 7776), ('T', 780, 356), ('T', 775, 7786), ('U', 769, 218), ('U', 774, 364),
  ('U', 780, 467), ('U', 770, 219), ('U', 768, 217), ('U', 772, 362), ('U', 771, 360), ('U', 776, 220), ('V', 771, 7804), ('W', 769, 7810),
  ('W', 770, 372), ('W', 775, 7814), ('W', 768, 7808), ('W', 776, 7812), ('X', 775, 7818), ('X', 776, 7820), ('Y', 769, 221), ('Y', 770, 374),
  ('Y', 775, 7822), ('Y', 768, 7922), ('Y', 772, 562), ('Y', 771, 7928), ('Y', 776, 376), ('Z', 769, 377), ('Z', 780, 381), ('Z', 770, 7824),
  ('Z', 775, 379)]

/-- Entities named as a letter with an accent that stand for a symbol. -/
def symbols : List String := [
  "ldot", "odot", "sdot", "tdot", "xcirc"]

/-- The Greek letters of ISO 8879 (ISOgrk1 and ISOgrk2). -/
def greek : List (String × List Nat) := [
  ("Aacgr", [902]), ("Agr", [913]), ("Bgr", [914]), ("Dgr", [916]), ("EEacgr", [905]), ("EEgr", [919]), ("Eacgr", [904]), ("Egr", [917]),
  ("Ggr", [915]), ("Iacgr", [906]), ("Idigr", [938]), ("Igr", [921]), ("KHgr", [935]), ("Kgr", [922]), ("Lgr", [923]), ("Mgr", [924]),
  ("Ngr", [925]), ("OHacgr", [911]), ("OHgr", [937]), ("Oacgr", [908]), ("Ogr", [927]), ("PHgr", [934]), ("PSgr", [936]), ("Pgr", [928]),
  ("Rgr", [929]), ("Sgr", [931]), ("THgr", [920]), ("Tgr", [932]), ("Uacgr", [910]), ("Udigr", [939]), ("Ugr", [933]), ("Xgr", [926]),
  ("Zgr", [918]), ("aacgr", [940]), ("agr", [945]), ("bgr", [946]), ("dgr", [948]), ("eacgr", [941]), ("eeacgr", [942]), ("eegr", [951]),
  ("egr", [949]), ("ggr", [947]), ("iacgr", [943]), ("idiagr", [912]), ("idigr", [970]), ("igr", [953]), ("kgr", [954]), ("khgr", [967]),
  ("lgr", [955]), ("mgr", [956]), ("ngr", [957]), ("oacgr", [972]), ("ogr", [959]), ("ohacgr", [974]), ("ohgr", [969]), ("pgr", [960]),
  ("phgr", [966]), ("psgr", [968]), ("rgr", [961]), ("sfgr", [962]), ("sgr", [963]), ("tgr", [964]), ("thgr", [952]), ("uacgr", [973]),
  ("udiagr", [944]), ("udigr", [971]), ("ugr", [965]), ("xgr", [958]), ("zgr", [950])]

/-- The bold Greek letters (ISOgrk4), which stand for the plain ones. -/
def bold : List String := [
  "Delta", "Gamma", "Lambda", "Omega", "Phi", "Pi", "Psi", "Sigma", "Theta", "Upsi", "Xi", "alpha", "beta", "chi", "delta", "epsi", "eta", "gamma",
  "gammad", "iota", "kappa", "kappav", "lambda", "mu", "nu", "phis", "phiv", "pi", "piv", "psi", "rho", "rhov", "sigma", "sigmav", "tau", "thetas",
  "thetav", "upsi", "xi", "zeta"]

/-- Their texts. -/
def boldPlain : List (String × List Nat) := [
  ("Delta", [916]), ("Gamma", [915]), ("Lambda", [923]), ("Omega", [937]), ("Phi", [934]), ("Pi", [928]), ("Psi", [936]), ("Sigma", [931]),
  ("Theta", [920]), ("Upsi", [933]), ("Xi", [926]), ("alpha", [945]), ("beta", [946]), ("chi", [967]), ("delta", [948]), ("epsi", [949]),
  ("eta", [951]), ("gamma", [947]), ("gammad", [988]), ("iota", [953]), ("kappa", [954]), ("kappav", [1008]), ("lambda", [955]), ("mu", [956]),
  ("nu", [957]), ("phis", [966]), ("phiv", [981]), ("pi", [960]), ("piv", [982]), ("psi", [968]), ("rho", [961]), ("rhov", [1009]), ("sigma", [963]),
  ("sigmav", [962]), ("tau", [964]), ("thetas", [952]), ("thetav", [977]), ("upsi", [965]), ("xi", [958]), ("zeta", [950])]

/-- The letters with an accent that the library has as one character. -/
def single : List (Char × Nat × Nat) := [
  ('a', 769, 225), ('a', 774, 259), ('a', 770, 226), ('a', 768, 224), ('a', 772, 257), ('a', 771, 227), ('a', 776, 228), ('c', 769, 263),
  ('c', 780, 269), ('c', 770, 265), ('c', 775, 267), ('d', 780, 271), ('e', 769, 233), ('e', 780, 283), ('e', 770, 234), ('e', 775, 279),
  ('e', 768, 232), ('e', 772, 275), ('e', 776, 235), ('g', 769, 501), ('g', 774, 287), ('g', 770, 285), ('g', 775, 289), ('h', 770, 293),
  ('i', 769, 237), ('i', 770, 238), ('i', 768, 236), ('i', 772, 299), ('i', 771, 297), ('i', 776, 239), ('j', 770, 309), ('l', 769, 314),
  ('l', 780, 318), ('n', 769, 324), ('n', 780, 328), ('n', 771, 241), ('o', 769, 243), ('o', 780, 466), ('o', 770, 244), ('o', 768, 242),
  ('o', 772, 333), ('o', 771, 245), ('o', 776, 246), ('r', 769, 341), ('r', 780, 345), ('s', 769, 347), ('s', 780, 353), ('s', 770, 349),
  ('t', 780, 357), ('u', 769, 250), ('u', 774, 365), ('u', 770, 251), ('u', 768, 249), ('u', 772, 363), ('u', 771, 361), ('u', 776, 252),
  ('w', 770, 373), ('y', 769, 253), ('y', 770, 375), ('y', 776, 255), ('z', 769, 378), ('z', 780, 382), ('z', 775, 380), ('A', 769, 193),
  ('A', 774, 258), ('A', 770, 194), ('A', 768, 192), ('A', 772, 256), ('A', 771, 195), ('A', 776, 196), ('C', 769, 262), ('C', 780, 268),
  ('C', 770, 264), ('C', 775, 266), ('D', 780, 270), ('E', 769, 201), ('E', 780, 282), ('E', 770, 202), ('E', 775, 278), ('E', 768, 200),
  ('E', 772, 274), ('E', 776, 203), ('G', 774, 286), ('G', 770, 284), ('G', 775, 288), ('H', 770, 292), ('I', 769, 205), ('I', 770, 206),
  ('I', 775, 304), ('I', 768, 204), ('I', 772, 298), ('I', 771, 296), ('I', 776, 207), ('J', 770, 308), ('L', 769, 313), ('L', 780, 317),
  ('N', 769, 323), ('N', 780, 327), ('N', 771, 209), ('O', 769, 211), ('O', 780, 465), ('O', 770, 212), ('O', 768, 210), ('O', 772, 332),
  ('O', 771, 213), ('O', 776, 214), ('R', 769, 340), ('R', 780, 344), ('S', 769, 346), ('S', 780, 352), ('S', 770, 348), ('T', 780, 356),
  ('U', 769, 218), ('U', 774, 364), ('U', 770, 219), ('U', 768, 217), ('U', 772, 362), ('U', 771, 360), ('U', 776, 220), ('W', 770, 372),
  ('Y', 769, 221), ('Y', 770, 374), ('Y', 776, 376), ('Z', 769, 377), ('Z', 780, 381), ('Z', 775, 379)]

/-- The other entities. -/
def others : List (String × List Nat) := [
  ("Edotb", [7864]), ("Odotb", [7884]), ("ang90", [8735]), ("b.epsis", [949]), ("b.epsiv", [949]), ("b.omega", [974]), ("circlef", [9679]),
  ("circlefb", [9682]), ("circlefl", [9680]), ("circlefr", [9681]), ("circleft", [9683]), ("cupre", [8828]), ("darr2", [8650]), ("diamondf", [9670]),
  ("dlarr", [8601]), ("drarr", [8600]), ("edotb", [7865]), ("epsis", [8714]), ("gcedil", [291]), ("gsdot", [8919]), ("larr2", [8647]),
  ("ldot", [8918]), ("lrarr2", [8646]), ("lrhar2", [8651]), ("odotb", [7885]), ("page", [12]), ("phis", [966]), ("rarr2", [8649]),
  ("rlarr2", [8644]), ("rlhar2", [8652]), ("samalg", [8720]), ("sbsol", [92]), ("schwa", [601]), ("schwaacute", [601,769]),
  ("schwadgrave", [601,783]), ("schwagrave", [601,768]), ("schwamacr", [601,772]), ("thetas", [952]), ("uarr2", [8648]), ("vprime", [8242]),
  ("vtab", [11])]
/-- The letters. -/
def letters : List Char := "ABCDEFGHIJKLMNOPQRSTUVWXYZabcdefghijklmnopqrstuvwxyz".toList

/-- All entities with a fixed list of names. -/
def listed : List (String × List Nat) := html4 ++ html5 ++ greek ++ others

/-- A text of code points. -/
def codes (l : List Nat) : List Int := l.map fun n : Nat => (n : Int)

/-! ### Proofs -/

/-- The code points of a name. -/
def nameCodes (n : String) : List Nat := n.toList.map Char.toNat

/-- The first entry of this name. -/
def firstOf (n : List Nat) : Option (List Nat) := (pairs.find? fun p => p.1 == n).map fun p => p.2

theorem uniOf_castL (n : List Nat) : uniOf (castL n) = (firstOf n).map castL := by
  unfold uniOf firstOf
  rw [show (fun e : List Nat × List Nat => castL e.1 == castL n) = fun e => e.1 == n from ?_]
  · cases pairs.find? fun e => e.1 == n <;> rfl
  · funext e
    by_cases h : e.1 = n
    · simp [h]
    · have : castL e.1 ≠ castL n := fun q => h (castL_inj q)
      rw [beq_eq_false_iff_ne.2 h, beq_eq_false_iff_ne.2 this]

theorem asc_codes (n : String) : asc n = castL (nameCodes n) := by
  unfold asc castL nameCodes
  rw [List.map_map]
  rfl

/-- A letter, a digit or a point. -/
def plainCode (c : Nat) : Bool := Nat.ble 46 c && Nat.ble c 122 && !Nat.beq c 59

theorem plainCode_inName {c : Nat} (h : plainCode c = true) : 46 ≤ c ∧ inName (c : Int) = true := by
  unfold plainCode at h
  simp only [Bool.and_eq_true, Nat.ble_eq, Bool.not_eq_true'] at h
  have h59 : c ≠ 59 := fun q => by rw [q] at h; exact absurd h.2 (by decide)
  refine ⟨h.1.1, ?_⟩
  unfold inName isspace
  simp only [decide_eq_true_eq]
  omega

theorem leL_anti : ∀ a b : List Nat, leL a b = true → leL b a = true → a = b
  | [], [], _, _ => rfl
  | [], _ :: _, _, h => by cases h
  | _ :: _, [], h, _ => by cases h
  | a :: x, b :: y, h1, h2 => by
    rw [show leL (a :: x) (b :: y) = if a < b then true else if b < a then false else leL x y from rfl] at h1
    rw [show leL (b :: y) (a :: x) = if b < a then true else if a < b then false else leL y x from rfl] at h2
    by_cases p : a < b
    · rw [if_neg (by omega), if_pos p] at h2; cases h2
    · by_cases q : b < a
      · rw [if_neg p, if_pos q] at h1; cases h1
      · rw [if_neg p, if_neg q] at h1
        rw [if_neg q, if_neg p] at h2
        rw [leL_anti x y h1 h2, show a = b by omega]

/-- One pass over the table that finds the entries of a list in the same order, each the first of its name. -/
def walk (prev : List Nat) : List (List Nat × List Nat) → List (String × List Nat) → Bool
  | _, [] => true
  | [], _ :: _ => false
  | t :: ts, s :: ss => bif t.1 == nameCodes s.1 then t.1 != prev && t.2 == s.2 && walk t.1 ts ss else walk t.1 ts (s :: ss)

theorem walk_spec : ∀ (T : List (List Nat × List Nat)) (S : List (String × List Nat)) (prev : List Nat), sortedB (prev :: T.map fun e => e.1) = true →
    walk prev T S = true → ∀ s ∈ S, ((T.find? fun p => p.1 == nameCodes s.1).map fun p => p.2) = some s.2 ∧ nameCodes s.1 ≠ prev := by
  intro T
  induction T with
  | nil =>
    intro S prev _ hw s hs
    cases S with
    | nil => cases hs
    | cons => cases hw
  | cons t ts ih =>
    intro S prev hsort hw s hs
    rw [List.map_cons] at hsort
    have hs2 : sortedB (t.1 :: ts.map fun e => e.1) = true := by
      rw [sortedB, Bool.and_eq_true] at hsort
      exact hsort.2
    have h01 : leL prev t.1 = true := by
      rw [sortedB, Bool.and_eq_true] at hsort
      exact hsort.1
    have later : ((ts.find? fun p => p.1 == nameCodes s.1).map fun p => p.2) = some s.2 ∧ nameCodes s.1 ≠ t.1 →
        (((t :: ts).find? fun p => p.1 == nameCodes s.1).map fun p => p.2) = some s.2 ∧ nameCodes s.1 ≠ prev := by
      intro ⟨h1, h2⟩
      refine ⟨?_, fun q => ?_⟩
      · rw [List.find?_cons, beq_eq_false_iff_ne.2 (fun q => h2 q.symm)]
        exact h1
      · cases hf : ts.find? fun p => p.1 == nameCodes s.1 with
        | none => rw [hf] at h1; cases h1
        | some p =>
          have hp := List.mem_of_find?_eq_some hf
          have hpn : p.1 = nameCodes s.1 := by simpa using List.find?_some hf
          obtain ⟨i, hi⟩ := List.mem_iff_getElem?.1 hp
          have := sorted_get _ hs2 0 (i + 1) (by omega) t.1 p.1 rfl (by rw [List.getElem?_cons_succ, List.getElem?_map, hi]; rfl)
          rw [hpn, q] at this
          exact h2 (q.trans (leL_anti _ _ h01 this))
    cases S with
    | nil => cases hs
    | cons a ss =>
      rw [walk] at hw
      by_cases e : t.1 = nameCodes a.1
      · rw [beq_iff_eq.2 e, cond_true, Bool.and_eq_true, Bool.and_eq_true, bne_iff_ne, beq_iff_eq] at hw
        cases hs with
        | head =>
          refine ⟨?_, fun q => hw.1.1 (e.trans q)⟩
          rw [List.find?_cons, beq_iff_eq.2 e, ← hw.1.2]
          rfl
        | tail _ hs => exact later (ih ss t.1 hs2 hw.2 s hs)
      · rw [beq_eq_false_iff_ne.2 e, cond_false] at hw
        exact later (ih (a :: ss) t.1 hs2 hw s hs)

/-- A list with proper names, in the order of the table and with the texts of the table. -/
def given (l : List (String × List Nat)) : Bool := walk [] pairs l && l.all fun e => (nameCodes e.1).all plainCode

theorem given_meaning {l : List (String × List Nat)} (h : given l = true) {e : String × List Nat} (he : e ∈ l) :
    (∀ c ∈ asc e.1, inName c = true) ∧ meaning (asc e.1) = some (codes e.2) := by
  unfold given at h
  simp only [Bool.and_eq_true, List.all_eq_true] at h
  rw [asc_codes]
  have hsort : sortedB ([] :: pairs.map fun e => e.1) = true := by
    have := names_sorted
    cases hp : pairs.map fun e => e.1 with
    | nil => rfl
    | cons x y => rw [hp] at this; rw [sortedB, Bool.and_eq_true]; exact ⟨rfl, this⟩
  have hf := (walk_spec pairs l [] hsort h.1 e he).1
  refine ⟨fun c hc => ?_, ?_⟩
  · obtain ⟨x, hx, rfl⟩ := List.mem_map.1 hc
    exact (plainCode_inName (h.2 e he x hx)).2
  · rw [meaning_name (Or.inr ?_), uniOf_castL, show firstOf (nameCodes e.1) = some e.2 from hf]; rfl
    cases hn : nameCodes e.1 with
    | nil => simp [castL]
    | cons x t =>
      have := (plainCode_inName (h.2 e he x (by rw [hn]; simp))).1
      simp only [castL, List.map_cons, List.head?_cons, ne_eq, Option.some.injEq]
      omega

theorem html4_given : given html4 = true := by decide +kernel
theorem html5_given : given html5 = true := by decide +kernel
theorem greek_given : given greek = true := by decide +kernel
theorem others_given : given others = true := by decide +kernel

/-- What the table has for the letters with accents: these as one character, the others as letter and mark. -/
def accented : List (String × List Nat) :=
  letters.flatMap fun l => accents.filterMap fun a =>
    if symbols.contains (String.ofList (l :: a.1.toList)) then none
    else some (String.ofList (l :: a.1.toList), match single.find? fun e => e.1 == l && e.2.1 == a.2 with
      | some e => [e.2.2]
      | none => [l.toNat, a.2])

theorem accented_given : given accented = true := by decide +kernel

theorem single_composed : (single.all fun e => composed.contains e) = true := by decide +kernel

theorem listed_meaning' {e : String × List Nat} (he : e ∈ listed) : (∀ c ∈ asc e.1, inName c = true) ∧ meaning (asc e.1) = some (codes e.2) := by
  simp only [listed, List.mem_append] at he
  rcases he with ((he | he) | he) | he
  · exact given_meaning html4_given he
  · exact given_meaning html5_given he
  · exact given_meaning greek_given he
  · exact given_meaning others_given he

/-! ### Theorems -/

/-- An entity between other text is read as what it stands for; decoding goes on after it. -/
theorem pieces_entity {name u : List Int} (hn : ∀ c ∈ name, inName c = true) (hm : meaning name = some u) (r : List Int) :
    pieces 0 (38 :: (name ++ 59 :: r)) = .ent name u :: pieces 0 r := by
  have hs : splitEntity (name ++ 59 :: r) = some (name, r) := by
    have hd : (name ++ 59 :: r).dropWhile inName = 59 :: r := by
      rw [List.dropWhile_append_of_pos hn]; rfl
    have ht : (name ++ 59 :: r).takeWhile inName = name := by
      rw [List.takeWhile_append_of_pos hn]
      simp [show inName 59 = false from rfl]
    unfold splitEntity
    rw [hd, ht]
    rfl
  rw [pieces_amp, hs]
  dsimp only
  rw [hm]
  dsimp only
  rw [flagged_zero]
  rfl

/-- **C156** (HTML 4) Every character entity reference of HTML 4 stands for its HTML 4 character. -/
theorem html4_meaning : ∀ e ∈ html4, meaning (asc e.1) = some (codes e.2) := fun _ he => (given_meaning html4_given he).2

/-- **C156** (listed) Every listed entity stands for its character. -/
theorem listed_meaning : ∀ e ∈ listed, meaning (asc e.1) = some (codes e.2) := fun _ he => (listed_meaning' he).2

/-- **C156** (decoding) Where a listed entity stands in SGML text, decoding yields its character, between what the text before and the text after it
stand for. -/
theorem sgml2str_entity {e : String × List Nat} (he : e ∈ listed) {s : List Int} {count : Nat} (hv : Valid s (some count)) (hc : count < 2 ^ 64)
    (dst : List Int) {before after : List Int} (hb : (38 : Int) ∉ before)
    (ht : text s (some count) = before ++ asc "&" ++ asc e.1 ++ asc ";" ++ after) :
    (sgml2strcat s count 0 dst).map Prod.fst = some (dst ++ before ++ codes e.2 ++ decodeSpec 0 after) := by
  rw [sgml2str_decodes hv hc dst, ht]
  have hg := listed_meaning' he
  have hp : ∀ (b r : List Int), (38 : Int) ∉ b → (pieces 0 (b ++ r)).flatMap Piece.out = b ++ (pieces 0 r).flatMap Piece.out := by
    intro b
    induction b with
    | nil => intro r _; rfl
    | cons x b ih =>
      intro r h
      rw [List.cons_append, pieces_chr 0 _ (fun q => h (by simp [q])), List.flatMap_cons, ih r (fun q => h (by simp [q]))]
      rfl
  rw [show before ++ asc "&" ++ asc e.1 ++ asc ";" ++ after = before ++ (38 :: (asc e.1 ++ 59 :: after)) by
    simp only [List.append_assoc]; rfl]
  rw [hp _ _ hb, pieces_entity hg.1 hg.2, List.flatMap_cons]
  simp only [decodeSpec, Piece.out, List.append_assoc]

/-- **C156** (accents) A letter followed by the name of an accent stands for the letter with that accent, composed or as letter and combining mark,
except in five entities that name a symbol. -/
theorem accented_meaning : ∀ l ∈ letters, ∀ a ∈ accents, String.ofList (l :: a.1.toList) ∉ symbols →
    (meaning ((l.toNat : Int) :: asc a.1) = some [(l.toNat : Int), (a.2 : Int)] ∨
      ∃ c, (l, a.2, c) ∈ composed ∧ meaning ((l.toNat : Int) :: asc a.1) = some [(c : Int)]) := by
  intro l hl a ha hs
  have hm : (String.ofList (l :: a.1.toList), match single.find? fun e => e.1 == l && e.2.1 == a.2 with
      | some e => [e.2.2]
      | none => [l.toNat, a.2]) ∈ accented := by
    unfold accented
    refine List.mem_flatMap.2 ⟨l, hl, List.mem_filterMap.2 ⟨a, ha, ?_⟩⟩
    rw [if_neg (by rw [List.contains_iff_mem]; exact hs)]
  have := (given_meaning accented_given hm).2
  rw [show asc (String.ofList (l :: a.1.toList)) = (l.toNat : Int) :: asc a.1 by
    unfold asc; rw [String.toList_ofList]; rfl] at this
  rw [this]
  cases hf : single.find? fun e => e.1 == l && e.2.1 == a.2 with
  | none => exact .inl rfl
  | some e =>
    have hmem := List.all_eq_true.1 single_composed e (List.mem_of_find?_eq_some hf)
    rw [List.contains_iff_mem] at hmem
    have he := List.find?_some hf
    simp only [Bool.and_eq_true, beq_iff_eq] at he
    refine .inr ⟨e.2.2, ?_, rfl⟩
    rw [← he.1, ← he.2]
    exact hmem

/-- **C156** (differences) These entities have a meaning that is not that of HTML. -/
theorem older_meaning : ∀ e ∈ older, meaning (asc e.1) = some (codes e.2.2) ∧ e.2.1 ≠ e.2.2 := by
  have h : given (older.map fun e => (e.1, e.2.2)) = true := by decide +kernel
  have h2 : (older.all fun e => e.2.1 != e.2.2) = true := by decide +kernel
  intro e he
  refine ⟨(given_meaning h (e := (e.1, e.2.2)) (List.mem_map.2 ⟨e, he, rfl⟩)).2, ?_⟩
  have := List.all_eq_true.1 h2 e he
  rwa [bne_iff_ne] at this

/-- **C156** (bold) The bold Greek letters stand for the plain ones. -/
theorem bold_meaning : ∀ n ∈ bold, ∃ u, meaning (asc n) = some u ∧ meaning (asc ("b." ++ n)) = some u := by
  have h : given boldPlain = true := by decide +kernel
  have h2 : given (boldPlain.map fun e => ("b." ++ e.1, e.2)) = true := by decide +kernel
  have h3 : (bold.all fun n => boldPlain.any fun e => e.1 == n) = true := by decide +kernel
  intro n hn
  have := List.all_eq_true.1 h3 n hn
  rw [List.any_eq_true] at this
  obtain ⟨e, he, hen⟩ := this
  rw [beq_iff_eq] at hen
  subst hen
  exact ⟨codes e.2, (given_meaning h he).2, (given_meaning h2 (e := ("b." ++ e.1, e.2)) (List.mem_map.2 ⟨e, he, rfl⟩)).2⟩

/-- "5 &lt; &pi;" is read; the text before the entity and the rest are as in the theorem. -/
example : (sgml2strcat (asc "5 &lt; &pi;" ++ [0]) 100 0 []).map Prod.fst = some (asc "5 " ++ codes [60] ++ decodeSpec 0 (asc " &pi;")) :=
  sgml2str_entity (e := ("lt", [60])) (by decide +kernel) (Or.inl (by decide)) (by decide) [] (before := asc "5 ") (after := asc " &pi;") (by decide)
    (by decide +kernel)

example : meaning (asc "plusmn") = some [177] := html4_meaning ("plusmn", [177]) (by decide +kernel)
example : meaning ((('q' : Char).toNat : Int) :: asc "tilde") = some [113, 771] :=
  (accented_meaning 'q' (by decide) ("tilde", 771) (by decide) (by decide +kernel)).elim id (fun ⟨c, h, _⟩ => absurd h (by
    have : (composed.all fun e => !(e.1 == 'q' && e.2.1 == 771)) = true := by decide +kernel
    intro h
    exact absurd (List.all_eq_true.1 this _ h) (by simp)))

end Verif.Sgml
