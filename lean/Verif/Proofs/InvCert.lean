import Verif.Proofs.InvCoef
/-! The rational approximations of `atan` and `eval_asin` against the real functions. -/
namespace Dpm.X86
open Dpm.Reg Dpm.Fp Dpm.Poly

theorem ratF_zero (P Q : List Int) : ratF P Q 0 = 0 := by unfold ratF; simp
theorem atan_ok32 : atanOk (atanPI 32) (atanQI 32) 8 (64 * 2 ^ 24) 64 0 14 = true := by decide +kernel
theorem atan_ok64a : atanOk (atanPI 64) (atanQI 64) 44 (64 * 2 ^ 53) 256 0 46 = true := by decide +kernel
theorem atan_ok64b : atanOk (atanPI 64) (atanQI 64) 142 (64 * 2 ^ 53) 256 45 9 = true := by decide +kernel
theorem atan_ok64c : atanOk (atanPI 64) (atanQI 64) 708 (64 * 2 ^ 53) 256 53 3 = true := by decide +kernel
/-- coefficients of `2 R(2t)` and `S(2t)` -/
def dbl (k : Nat) : List Int → List Int
  | [] => []
  | a :: p => (a * 2 ^ k) :: dbl (k + 1) p
theorem asin_p32 : (asinPI 32) = [2200657920, -5251300864, 4365426176, -1461529728, 161587360, -1141659] := by decide +kernel
theorem asin_q32 : (asinQI 32) = [13203947520, -37449580544, 39508094976, -18923653120, 3956983808, -268435456] := by decide +kernel
theorem asin_num32 : numP (asinPI 32) (asinQI 32) = [174344230110914150400, -901792477242521026560, 2016693487153337860096, -2552337766453000273920, 2009116940794836549632, -1017637943267399565312, 331369637685173698560, -67163215043056943104, 7854477099737608192, -447289691189745664, 6094186486204416, 919385262784512] := by
  unfold numP
  rw [asin_p32, asin_q32,
    show mulP [13203947520, -37449580544, 39508094976, -18923653120, 3956983808, -268435456] [13203947520, -37449580544, 39508094976, -18923653120, 3956983808, -268435456] = [174344230110914150400, -988964592297978101760, 2445796708278102654976, -3458857015253756018688, 3082750925117593747456, -1798738552520739651584, 690876022076676767744, -170971924949245100032, 25817279765680226304, -2124389505770192896, 72057594037927936] by decide +kernel,
    show mulP (0 :: [2200657920, -5251300864, 4365426176, -1461529728, 161587360, -1141659]) [13203947520, -37449580544, 39508094976, -18923653120, 3956983808, -268435456] = [0, 29057371685152358400, -151751617044818165760, 341243674910529683456, -431894721410753363968, 337418701995125506048, -167788566340437196800, 52767801049187729408, -10058012556214308864, 1053329324988028928, -47893302842693632, 306461754261504] by decide +kernel,
    show derP (0 :: [2200657920, -5251300864, 4365426176, -1461529728, 161587360, -1141659]) = [2200657920, -10502601728, 13096278528, -5846118912, 807936800, -6849954] by decide +kernel,
    show derP [13203947520, -37449580544, 39508094976, -18923653120, 3956983808, -268435456] = [-37449580544, 79016189952, -56770959360, 15827935232, -1342177280] by decide +kernel,
    show mulP [2200657920, -10502601728, 13096278528, -5846118912, 807936800, -6849954] [13203947520, -37449580544, 39508094976, -18923653120, 3956983808, -268435456] = [29057371685152358400, -221089518064804823040, 653184405838351040512, -1024224258549507686400, 954467231802367410176, -551295153534078058496, 197447530886407159808, -42208247752289312768, 4895924584844234752, -243984040390725632, 1838770525569024] by decide +kernel,
    show mulP (0 :: [2200657920, -5251300864, 4365426176, -1461529728, 161587360, -1141659]) [-37449580544, 79016189952, -56770959360, 15827935232, -1342177280] = [0, -82413716024831508480, 370546618893238009856, -703354627093505769472, 732626278173260120064, -455436244508545122304, 171927076457906946048, -38255852697425158144, 4584039340048025600, -234948988036210688, 1532308771307520] by decide +kernel]
  decide +kernel
theorem asin_qq32 : mulP (asinQI 32) (asinQI 32) = [174344230110914150400, -988964592297978101760, 2445796708278102654976, -3458857015253756018688, 3082750925117593747456, -1798738552520739651584, 690876022076676767744, -170971924949245100032, 25817279765680226304, -2124389505770192896, 72057594037927936] := by decide +kernel
theorem asin_q432 : mulP [174344230110914150400, -988964592297978101760, 2445796708278102654976, -3458857015253756018688, 3082750925117593747456, -1798738552520739651584, 690876022076676767744, -170971924949245100032, 25817279765680226304, -2124389505770192896, 72057594037927936] [174344230110914150400, -988964592297978101760, 2445796708278102654976, -3458857015253756018688, 3082750925117593747456, -1798738552520739651584, 690876022076676767744, -170971924949245100032, 25817279765680226304, -2124389505770192896, 72057594037927936] = [30395910572967384307486332758953820160000, -344840540902290180477242939189030289408000, 1830872053044213842137874295729787659878400, -6043676215668282420047994553115661482065920, 13898215447365537352652379500573219551707136, -23643984604474887935074344606020174711095296, 30841933956988650229490165316924382260494336, -31550406773117012466175828653837372205563904, 25673169337179958333680652668437987902619648, -16757539268635792755552741595874142449565696, 8808307310155168453221816937074119350943744, -3728669124459248307285951893499100834824192, 1266602145196551188970634390156312343216128, -342714280920665552393167723116959971147776, 72991192050120957211593948690186068033536, -12022665123954803167329394312126977277952, 1492519588645091687094418449430927638528, -134331567523240007335362017674680860672, 8233692901264518466746244448496123904, -306156793170445852431151461734285312, 5192296858534827628530496329220096] := by decide +kernel
theorem asin_n232 : mulP [174344230110914150400, -901792477242521026560, 2016693487153337860096, -2552337766453000273920, 2009116940794836549632, -1017637943267399565312, 331369637685173698560, -67163215043056943104, 7854477099737608192, -447289691189745664, 6094186486204416, 919385262784512] [174344230110914150400, -901792477242521026560, 2016693487153337860096, -2552337766453000273920, 2009116940794836549632, -1017637943267399565312, 331369637685173698560, -67163215043056943104, 7854477099737608192, -447289691189745664, 6094186486204416, 919385262784512] = [30395910572967384307486332758953820160000, -314444630329322796169756606430076469248000, 1516427418786089655377288085277120030310400, -4527248756988250682562969192531599315435520, 9370966507956620218779730641307501085065216, -14273017594962325536892349661187730917294080, 16568915425241953498472850017427657204957184, -14981490046296371012665741549988701676765184, 10691677702135040179609667605937579679023104, -6065859162851079027002851449225732713086976, 2742443105149659288388733052112748190629888, -986215459685923848016092072227042947497984, 280368825588926707962202391097186111717376, -62322443511744339963531306501401183518720, 10646520542350428936300673681400252071936, -1360209360610868027953165685977914540032, 123943292022199451665211171561860497408, -7235750864924021473869197946927448064, 172303624015836819282343933870342144, 8990847401820196240968954056540160, -785323991621938551803821298810880, 11205810488153737636764381609984, 845269261425346185939747078144] := by decide +kernel
theorem asin_N32 : addP (mulP [30395910572967384307486332758953820160000, -314444630329322796169756606430076469248000, 1516427418786089655377288085277120030310400, -4527248756988250682562969192531599315435520, 9370966507956620218779730641307501085065216, -14273017594962325536892349661187730917294080, 16568915425241953498472850017427657204957184, -14981490046296371012665741549988701676765184, 10691677702135040179609667605937579679023104, -6065859162851079027002851449225732713086976, 2742443105149659288388733052112748190629888, -986215459685923848016092072227042947497984, 280368825588926707962202391097186111717376, -62322443511744339963531306501401183518720, 10646520542350428936300673681400252071936, -1360209360610868027953165685977914540032, 123943292022199451665211171561860497408, -7235750864924021473869197946927448064, 172303624015836819282343933870342144, 8990847401820196240968954056540160, -785323991621938551803821298810880, 11205810488153737636764381609984, 845269261425346185939747078144] [1, -1]) (mulC (-1) [30395910572967384307486332758953820160000, -344840540902290180477242939189030289408000, 1830872053044213842137874295729787659878400, -6043676215668282420047994553115661482065920, 13898215447365537352652379500573219551707136, -23643984604474887935074344606020174711095296, 30841933956988650229490165316924382260494336, -31550406773117012466175828653837372205563904, 25673169337179958333680652668437987902619648, -16757539268635792755552741595874142449565696, 8808307310155168453221816937074119350943744, -3728669124459248307285951893499100834824192, 1266602145196551188970634390156312343216128, -342714280920665552393167723116959971147776, 72991192050120957211593948690186068033536, -12022665123954803167329394312126977277952, 1492519588645091687094418449430927638528, -134331567523240007335362017674680860672, 8233692901264518466746244448496123904, -306156793170445852431151461734285312, 5192296858534827628530496329220096]) = [0, 0, -3928801390590829604022591160320000, 39893942082107737275306942136320000, -182420666451309679666734119151206400, 501555942179402264303524942708736000, -936784371194124965638308994138243072, 1301578687955037237086421013323841536, -1588748547141405243512511706546831360, 2403649673548940222540710830057455616, -5042154430137830232435735638447226880, 10559623665170881126769159309696696320, -17859921700632992339926832083284000768, 23011819994504467434025518372675911680, -22227996026188311761968507384632442880, 15935220993506203075554944748810665984, -8366936012024207476041591891152601088, 3152524636116534196281648165892915200, -825638412324660173594702567698333696, 142844016556429229389776481920483328, -14968468251976962421303271684571136, 796529802110092289440585680420864, -10360541226728391450824634531840, -845269261425346185939747078144] := by decide +kernel
theorem asin_ok32 : asinOk (asinPI 32) (asinQI 32) 16 (64 * 2 ^ 24) 128 0 25 = true := by
  unfold asinOk asinN
  rw [asin_num32, asin_qq32, asin_q432, asin_n232, asin_N32]
  rw [Bool.and_eq_true, Bool.and_eq_true, Bool.and_eq_true]
  exact ⟨⟨⟨posOk_chunk 4 (by decide +kernel) (by decide) (posOk_chunk 4 (by decide +kernel) (by decide) (posOk_chunk 4 (by decide +kernel) (by decide) (posOk_chunk 4 (by decide +kernel) (by decide) (posOk_chunk 4 (by decide +kernel) (by decide) (posOk_chunk 4 (by decide +kernel) (by decide) (by decide +kernel)))))), posOk_chunk 4 (by decide +kernel) (by decide) (posOk_chunk 4 (by decide +kernel) (by decide) (posOk_chunk 4 (by decide +kernel) (by decide) (posOk_chunk 4 (by decide +kernel) (by decide) (posOk_chunk 4 (by decide +kernel) (by decide) (posOk_chunk 4 (by decide +kernel) (by decide) (by decide +kernel))))))⟩, posOk_chunk 4 (by decide +kernel) (by decide) (posOk_chunk 4 (by decide +kernel) (by decide) (posOk_chunk 4 (by decide +kernel) (by decide) (posOk_chunk 4 (by decide +kernel) (by decide) (posOk_chunk 4 (by decide +kernel) (by decide) (posOk_chunk 4 (by decide +kernel) (by decide) (by decide +kernel))))))⟩, posOk_chunk 4 (by decide +kernel) (by decide) (posOk_chunk 4 (by decide +kernel) (by decide) (posOk_chunk 4 (by decide +kernel) (by decide) (posOk_chunk 4 (by decide +kernel) (by decide) (posOk_chunk 4 (by decide +kernel) (by decide) (posOk_chunk 4 (by decide +kernel) (by decide) (by decide +kernel))))))⟩
theorem asin_p64 : (asinPI 64) = [9451754029982853120, -22554165092116959232, 18749362532203868160, -6277222238545994752, 694012399252802304, -4903388266662611] := by decide +kernel
theorem asin_q64 : (asinQI 64) = [56710524179896958976, -160844726433636843520, 169685983110821019648, -81276472918973677568, 16995116436742821888, -1152921504606846976] := by decide +kernel
theorem asin_num64 : numP (asinPI 64) (asinQI 64) = [3216083552758677651433842696812626968576, -16635135718868004193626320365262922055680, 37201430702563029344570293662133031796736, -47082325223097843576631531860505317605376, 37061669397926974539680225239175136280576, -18772108410999331388250103963733890957312, 6112691459731689819801752834726216957952, -1238942779455675803106399054348199493632, 144889550338014112720803792549569462272, -8251039607252003193376123554912731136, 112417903590119062555325285761964032, 16959665334216650629395093292843008] := by
  unfold numP
  rw [asin_p64, asin_q64,
    show mulP [56710524179896958976, -160844726433636843520, 169685983110821019648, -81276472918973677568, 16995116436742821888, -1152921504606846976] [56710524179896958976, -160844726433636843520, 169685983110821019648, -81276472918973677568, 16995116436742821888, -1152921504606846976] = [3216083552758677651433842696812626968576, -18243177495247347548926229010399142871040, 45116988117903079620883409868578457911296, -63804653831621851515189084082601937862656, 56866720891824401495507743697425924096000, -33180871695752606752129244937476426956800, 12744413819467710520654201764505045696512, -3153875479569104362637417450167980785664, 476244769592207599629959869748771553280, -39188070426436180177444712608878821376, 1329227995784915872903807060280344576] by decide +kernel,
    show mulP (0 :: [9451754029982853120, -22554165092116959232, 18749362532203868160, -6277222238545994752, 694012399252802304, -4903388266662611]) [56710524179896958976, -160844726433636843520, 169685983110821019648, -81276472918973677568, 16995116436742821888, -1152921504606846976] = [0, 536013925459781118433302881712073605120, -2799323316084503317721702430633552248832, 6294834866120140490737935163987654082560, -7967051558193390322390351682457355419648, 6224276563239769638380487149527247093760, -3095152783419171912683771338327219273728, 973394124982886193252805806675522191360, -185537582336353376260611318230478913536, 19430496145527247516618092185466109952, -883475474088838269538026717870262272, 5653221778072216876465031097614336] by decide +kernel,
    show derP (0 :: [9451754029982853120, -22554165092116959232, 18749362532203868160, -6277222238545994752, 694012399252802304, -4903388266662611]) = [9451754029982853120, -45108330184233918464, 56248087596611604480, -25108888954183979008, 3470061996264011520, -29420329599975666] by decide +kernel,
    show derP [56710524179896958976, -160844726433636843520, 169685983110821019648, -81276472918973677568, 16995116436742821888, -1152921504606846976] = [-160844726433636843520, 339371966221642039296, -243829418756921032704, 67980465746971287552, -5764607523034234880] by decide +kernel,
    show mulP [9451754029982853120, -45108330184233918464, 56248087596611604480, -25108888954183979008, 3470061996264011520, -29420329599975666] [56710524179896958976, -160844726433636843520, 169685983110821019648, -81276472918973677568, 16995116436742821888, -1152921504606846976] = [536013925459781118433302881712073605120, -4078381840898390057369555874586520715264, 12049125734781177598061807010508722667520, -18893603100312789803139995058863068938240, 17606813088477800527325881329871939960832, -10169600744336727935093483412844560187392, 3642264081222737267954373470650392444928, -778604738574873532704581462664096448512, 90313866323286846191644039051722489856, -4500711024970680982892747353513340928, 33919330668433301258790186585686016] by decide +kernel,
    show mulP (0 :: [9451754029982853120, -22554165092116959232, 18749362532203868160, -6277222238545994752, 694012399252802304, -4903388266662611]) [-160844726433636843520, 339371966221642039296, -243829418756921032704, 67980465746971287552, -5764607523034234880] = [0, -1520264791270616578073848986680583782400, 6835378863579243874151998481454239580160, -12974603132460771486421411670966352740352, 13514569727721047664576554417764295507968, -8401315956178303541009144617118755454976, 3171494793657466084815267176078262894592, -705695920115953477380309083179734859776, 84560598986458381457918790617472499712, -4334043715917701712487519825189281792, 28266108890361084382325155488071680] by decide +kernel]
  decide +kernel
theorem asin_qq64 : mulP (asinQI 64) (asinQI 64) = [3216083552758677651433842696812626968576, -18243177495247347548926229010399142871040, 45116988117903079620883409868578457911296, -63804653831621851515189084082601937862656, 56866720891824401495507743697425924096000, -33180871695752606752129244937476426956800, 12744413819467710520654201764505045696512, -3153875479569104362637417450167980785664, 476244769592207599629959869748771553280, -39188070426436180177444712608878821376, 1329227995784915872903807060280344576] := by decide +kernel
theorem asin_q464 : mulP [3216083552758677651433842696812626968576, -18243177495247347548926229010399142871040, 45116988117903079620883409868578457911296, -63804653831621851515189084082601937862656, 56866720891824401495507743697425924096000, -33180871695752606752129244937476426956800, 12744413819467710520654201764505045696512, -3153875479569104362637417450167980785664, 476244769592207599629959869748771553280, -39188070426436180177444712608878821376, 1329227995784915872903807060280344576] [3216083552758677651433842696812626968576, -18243177495247347548926229010399142871040, 45116988117903079620883409868578457911296, -63804653831621851515189084082601937862656, 56866720891824401495507743697425924096000, -33180871695752606752129244937476426956800, 12744413819467710520654201764505045696512, -3153875479569104362637417450167980785664, 476244769592207599629959869748771553280, -39188070426436180177444712608878821376, 1329227995784915872903807060280344576] = [10343193418324878136668333205533996156528626440798633956391000831849019291467776, -117343166185044487361028302014198827625958762409735249261753955549843913000878080, 623013531995092848868947616760582892176497262581985320368759629374080600445550592, -2056556640126422848436201140478286904622856729800300130344939560359159498006331392, 4729318118096219560378753230155499398793346549834065073045833495954949231498756096, -8045631894634702527542493671818726427892837494595001093472466201572017595536637952, 10494967455068170006856369098637432540804571064606021359976794553085838273711964160, -10736048331039949743298681503298608570646053922232720623143890293878537827792191488, 8736127849756216786671803600212536239869891025654862158374323942380082642376720384, -5702295788433112877418100314733465852564394127614986703036413031526924679731216384, 2997311998984422645933939247170193281609085034733184854094031583284094944474562560, -1268800492237125518117201777160410499141863294640720475759695506395790620577759232, 431002419706107066493550930772353528380200741984478844560350106280099855988686848, -116619637675353621576700166969208774372291003527119137131590799093316540482715648, 24837617735230732443002372073371565613740604120853095294072319764122113687945216, -4091101261946780369532152600082516358402361931960807006203473196986549313470464, 507878132660472691089260025605545714391148982943072523289730168875904036503552, -45710666307328268448378616535698391649610099069058140344421139269952615743488, 2801780624923520249140916196511784153949291550794015280507676033077200551936, -104179760623219794557811201021911479073070220562312640071771403148068913152, 1766847064778384329583297500742918515827483896875618958121606201292619776] := by decide +kernel
theorem asin_n264 : mulP [3216083552758677651433842696812626968576, -16635135718868004193626320365262922055680, 37201430702563029344570293662133031796736, -47082325223097843576631531860505317605376, 37061669397926974539680225239175136280576, -18772108410999331388250103963733890957312, 6112691459731689819801752834726216957952, -1238942779455675803106399054348199493632, 144889550338014112720803792549569462272, -8251039607252003193376123554912731136, 112417903590119062555325285761964032, 16959665334216650629395093292843008] [3216083552758677651433842696812626968576, -16635135718868004193626320365262922055680, 37201430702563029344570293662133031796736, -47082325223097843576631531860505317605376, 37061669397926974539680225239175136280576, -18772108410999331388250103963733890957312, 6112691459731689819801752834726216957952, -1238942779455675803106399054348199493632, 144889550338014112720803792549569462272, -8251039607252003193376123554912731136, 112417903590119062555325285761964032, 16959665334216650629395093292843008] = [10343193418324878136668333205533996156528626440798633956391000831849019291467776, -106999972766719580089325276207602069207595611071861153040206189433198017364623360, 516013559228367424641817870503278067788060699966085869986283106716310585602998272, -1540543080897678189185289694961034268385821052132767900753223549802298830709850112, 3188775037186734123176670267776754996980325115280727307313255274069304615641284608, -4856856857232319773512541774084250187759898072079370754698125246234512965297504256, 5638110595296135814045344907281123584906258761773219199165901982459425210626998272, -5097937715265882854351052106320310389330057856325561984093718087238221856715571200, 3638190017079724216400358062178100575070966953402090122481369996280208005537988608, -2064105280894590841075375233265876531208802461209808670726081183780733889988788224, 933205202519777369265725911776316981274380245519426606045676370642621120926187520, -335591794824413658592389195499229736206560076295122354923853682759667085477937152, 95404586672959563327431735489561829134745384641901418596864054305821061925568512, -21207233136474664012378124487611408625346099844969122063481939422027509993046016, 3622824054094659576307796656759102907469368941255763302035788264940859790721024, -462855378229668516445838447216115357029709676157233412476442602734325810069504, 42175728251823412648518859111549074310642561482556772416884805845363221069824, -2462199134004071805462556406557716250670460817294447473029098739126711091200, 58631903787045537739477466491834831737096943777084473927688408777770401792, 3059427418143093585000457121306538224601012296972135216020579896312987648, -267231955749123428555835173669785596649881656554783254813138596661297152, 3813140044925303639440407837644509381783674859554701768576190237376512, 287630248248629975893929427711868236225741680472953594876515334488064] := by decide +kernel
theorem asin_N64 : addP (mulP [10343193418324878136668333205533996156528626440798633956391000831849019291467776, -106999972766719580089325276207602069207595611071861153040206189433198017364623360, 516013559228367424641817870503278067788060699966085869986283106716310585602998272, -1540543080897678189185289694961034268385821052132767900753223549802298830709850112, 3188775037186734123176670267776754996980325115280727307313255274069304615641284608, -4856856857232319773512541774084250187759898072079370754698125246234512965297504256, 5638110595296135814045344907281123584906258761773219199165901982459425210626998272, -5097937715265882854351052106320310389330057856325561984093718087238221856715571200, 3638190017079724216400358062178100575070966953402090122481369996280208005537988608, -2064105280894590841075375233265876531208802461209808670726081183780733889988788224, 933205202519777369265725911776316981274380245519426606045676370642621120926187520, -335591794824413658592389195499229736206560076295122354923853682759667085477937152, 95404586672959563327431735489561829134745384641901418596864054305821061925568512, -21207233136474664012378124487611408625346099844969122063481939422027509993046016, 3622824054094659576307796656759102907469368941255763302035788264940859790721024, -462855378229668516445838447216115357029709676157233412476442602734325810069504, 42175728251823412648518859111549074310642561482556772416884805845363221069824, -2462199134004071805462556406557716250670460817294447473029098739126711091200, 58631903787045537739477466491834831737096943777084473927688408777770401792, 3059427418143093585000457121306538224601012296972135216020579896312987648, -267231955749123428555835173669785596649881656554783254813138596661297152, 3813140044925303639440407837644509381783674859554701768576190237376512, 287630248248629975893929427711868236225741680472953594876515334488064] [1, -1]) (mulC (-1) [10343193418324878136668333205533996156528626440798633956391000831849019291467776, -117343166185044487361028302014198827625958762409735249261753955549843913000878080, 623013531995092848868947616760582892176497262581985320368759629374080600445550592, -2056556640126422848436201140478286904622856729800300130344939560359159498006331392, 4729318118096219560378753230155499398793346549834065073045833495954949231498756096, -8045631894634702527542493671818726427892837494595001093472466201572017595536637952, 10494967455068170006856369098637432540804571064606021359976794553085838273711964160, -10736048331039949743298681503298608570646053922232720623143890293878537827792191488, 8736127849756216786671803600212536239869891025654862158374323942380082642376720384, -5702295788433112877418100314733465852564394127614986703036413031526924679731216384, 2997311998984422645933939247170193281609085034733184854094031583284094944474562560, -1268800492237125518117201777160410499141863294640720475759695506395790620577759232, 431002419706107066493550930772353528380200741984478844560350106280099855988686848, -116619637675353621576700166969208774372291003527119137131590799093316540482715648, 24837617735230732443002372073371565613740604120853095294072319764122113687945216, -4091101261946780369532152600082516358402361931960807006203473196986549313470464, 507878132660472691089260025605545714391148982943072523289730168875904036503552, -45710666307328268448378616535698391649610099069058140344421139269952615743488, 2801780624923520249140916196511784153949291550794015280507676033077200551936, -104179760623219794557811201021911479073070220562312640071771403148068913152, 1766847064778384329583297500742918515827483896875618958121606201292619776]) = [0, 29135034692601062762261834524897075462265156765284796876344786944, -5844137804470049702755180840951544038297342270333224571997477928960, 377234609093575013974568448974977701446359605432903840550081693483008, -11807248016793267417710133427200382420569864979354672083345785147621376, 215648630853281629957721243152614307234903031461085681268200014597849088, -2539714419298482417272058768138414230753431406112767324391900097787461632, 20477931074902284489697174596409737304133939439884270224180890760449622016, -117410609715920393431714125275468866215927210051799235858861652780123160576, 490458797819942367019289488746284624713003087909828961851465982784204439552, -1515570054435592838102127999769125902328003949577322274028860739933559586816, 3494892934490259086669884863781660922972826171514790165452993502414173634560, -6038208733844573729999783561963038895281047455071039632369214611708585181184, 7817865919394236890306992035536612199519040248596471244805365467968564101120, -7560544661408854316450929001054080925135334628209928554592077153743904178176, 5421829622452276778517496107298093903283314547810291691242329311363712679936, -2847026178980761994902719277881283050796745303282338396402760296215005364224, 1072738921500783994397201017591601088297076769206920454507234685462683582464, -280949587132402905938882323462233071541733789722483333550888885172719058944, 48607284254317350403334191651383185560574289082200301360103574266611499008, -5093506438670601343139589795719242337078377850402537428955324694266904576, 271045095794048732195275581507430106031665331414337956581714786898673664, -3525509796676673663546478409932641145557933179081748173699674902888448, -287630248248629975893929427711868236225741680472953594876515334488064] := by decide +kernel
theorem asin_ok64a : asinOk (asinPI 64) (asinQI 64) 68 (64 * 2 ^ 53) 256 0 40 = true := by
  unfold asinOk asinN
  rw [asin_num64, asin_qq64, asin_q464, asin_n264, asin_N64]
  rw [Bool.and_eq_true, Bool.and_eq_true, Bool.and_eq_true]
  exact ⟨⟨⟨posOk_chunk 4 (by decide +kernel) (by decide) (posOk_chunk 4 (by decide +kernel) (by decide) (posOk_chunk 4 (by decide +kernel) (by decide) (posOk_chunk 4 (by decide +kernel) (by decide) (posOk_chunk 4 (by decide +kernel) (by decide) (posOk_chunk 4 (by decide +kernel) (by decide) (posOk_chunk 4 (by decide +kernel) (by decide) (posOk_chunk 4 (by decide +kernel) (by decide) (posOk_chunk 4 (by decide +kernel) (by decide) (by decide +kernel))))))))), posOk_chunk 4 (by decide +kernel) (by decide) (posOk_chunk 4 (by decide +kernel) (by decide) (posOk_chunk 4 (by decide +kernel) (by decide) (posOk_chunk 4 (by decide +kernel) (by decide) (posOk_chunk 4 (by decide +kernel) (by decide) (posOk_chunk 4 (by decide +kernel) (by decide) (posOk_chunk 4 (by decide +kernel) (by decide) (posOk_chunk 4 (by decide +kernel) (by decide) (posOk_chunk 4 (by decide +kernel) (by decide) (by decide +kernel)))))))))⟩, posOk_chunk 4 (by decide +kernel) (by decide) (posOk_chunk 4 (by decide +kernel) (by decide) (posOk_chunk 4 (by decide +kernel) (by decide) (posOk_chunk 4 (by decide +kernel) (by decide) (posOk_chunk 4 (by decide +kernel) (by decide) (posOk_chunk 4 (by decide +kernel) (by decide) (posOk_chunk 4 (by decide +kernel) (by decide) (posOk_chunk 4 (by decide +kernel) (by decide) (posOk_chunk 4 (by decide +kernel) (by decide) (by decide +kernel)))))))))⟩, posOk_chunk 4 (by decide +kernel) (by decide) (posOk_chunk 4 (by decide +kernel) (by decide) (posOk_chunk 4 (by decide +kernel) (by decide) (posOk_chunk 4 (by decide +kernel) (by decide) (posOk_chunk 4 (by decide +kernel) (by decide) (posOk_chunk 4 (by decide +kernel) (by decide) (posOk_chunk 4 (by decide +kernel) (by decide) (posOk_chunk 4 (by decide +kernel) (by decide) (posOk_chunk 4 (by decide +kernel) (by decide) (by decide +kernel)))))))))⟩
theorem asin_ok64b : asinOk (asinPI 64) (asinQI 64) 113 (64 * 2 ^ 53) 256 39 7 = true := by
  unfold asinOk asinN
  rw [asin_num64, asin_qq64, asin_q464, asin_n264, asin_N64]
  rw [Bool.and_eq_true, Bool.and_eq_true, Bool.and_eq_true]
  exact ⟨⟨⟨posOk_chunk 4 (by decide +kernel) (by decide) (by decide +kernel), posOk_chunk 4 (by decide +kernel) (by decide) (by decide +kernel)⟩, posOk_chunk 4 (by decide +kernel) (by decide) (by decide +kernel)⟩, posOk_chunk 4 (by decide +kernel) (by decide) (by decide +kernel)⟩
theorem asin_ok64c : asinOk (asinPI 64) (asinQI 64) 832 (64 * 2 ^ 53) 256 45 5 = true := by
  unfold asinOk asinN
  rw [asin_num64, asin_qq64, asin_q464, asin_n264, asin_N64]
  rw [Bool.and_eq_true, Bool.and_eq_true, Bool.and_eq_true]
  exact ⟨⟨⟨posOk_chunk 4 (by decide +kernel) (by decide) (by decide +kernel), posOk_chunk 4 (by decide +kernel) (by decide) (by decide +kernel)⟩, posOk_chunk 4 (by decide +kernel) (by decide) (by decide +kernel)⟩, posOk_chunk 4 (by decide +kernel) (by decide) (by decide +kernel)⟩
theorem asinB_p32 : (dbl 1 (asinRI 32)) = [245128003584, -439272243200, 239443083264, -38718222336, 407880608] := by decide +kernel
theorem asinB_q32 : (dbl 0 (asinSI 32)) = [1470768087040, -3297479229440, 2526568251392, -754120523776, 68719476736] := by decide +kernel
theorem asinB_num32 : numP (dbl 1 (asinRI 32)) (dbl 0 (asinSI 32)) = [2163158765855301015961600, -8618075101941682269061120, 14266718691862333358080000, -12689588080386402364162048, 6543495654225361885986816, -1964151105556834701803520, 324711436434443595677696, -25291553284667805270016, 523714815076450959360, 84088025857564606464] := by
  unfold numP
  rw [asinB_p32, asinB_q32,
    show mulP [1470768087040, -3297479229440, 2526568251392, -754120523776, 68719476736] [1470768087040, -3297479229440, 2526568251392, -754120523776, 68719476736] = [2163158765855301015961600, -9699654436675204100915200, 18305361176339835477032960, -18880885461758581449687040, 11559081482916368874471424, -4263876040580985534808064, 915946660727086068531200, -103645535579529933750272, 4722366482869645213696] by decide +kernel,
    show mulP (0 :: [245128003584, -439272243200, 239443083264, -38718222336, 407880608]) [1470768087040, -3297479229440, 2526568251392, -754120523776, 68719476736] = [0, 360526444911173943951360, -1454372097193367526440960, 2419988974931107788095488, -2141211481336617247965184, 1081351006187477555740672, -309924711200386550071296, 46683147692187767013376, -2968287116821060911104, 28029341952521535488] by decide +kernel,
    show derP (0 :: [245128003584, -439272243200, 239443083264, -38718222336, 407880608]) = [245128003584, -878544486400, 718329249792, -154872889344, 2039403040] by decide +kernel,
    show derP [1470768087040, -3297479229440, 2526568251392, -754120523776, 68719476736] = [-3297479229440, 5053136502784, -2262361571328, 274877906944] by decide +kernel,
    show mulP [245128003584, -878544486400, 718329249792, -154872889344, 2039403040] [1470768087040, -3297479229440, 2526568251392, -754120523776, 68719476736] = [360526444911173943951360, -2100439694014401174568960, 4572810564006929506500608, -5001016549511831931060224, 3007970997677862208667648, -1000101761874223630909440, 171308725573325774913536, -12180739605027276980224, 140146709762607677440] by decide +kernel,
    show mulP (0 :: [245128003584, -439272243200, 239443083264, -38718222336, 407880608]) [-3297479229440, 5053136502784, -2262361571328, 274877906944] = [0, -808304500372333878312960, 2687156360786393857785856, -3563829375834637060800512, 2398784033259525570035712, -859446505328095669518336, 155473308271988594180096, -11565557329541210308608, 112117367810086141952] by decide +kernel]
  decide +kernel
theorem asinB_qq32 : mulP (dbl 0 (asinSI 32)) (dbl 0 (asinSI 32)) = [2163158765855301015961600, -9699654436675204100915200, 18305361176339835477032960, -18880885461758581449687040, 11559081482916368874471424, -4263876040580985534808064, 915946660727086068531200, -103645535579529933750272, 4722366482869645213696] := by decide +kernel
theorem asinB_q432 : mulP [2163158765855301015961600, -9699654436675204100915200, 18305361176339835477032960, -18880885461758581449687040, 11559081482916368874471424, -4263876040580985534808064, 915946660727086068531200, -103645535579529933750272, 4722366482869645213696] [2163158765855301015961600, -9699654436675204100915200, 18305361176339835477032960, -18880885461758581449687040, 11559081482916368874471424, -4263876040580985534808064, 915946660727086068531200, -103645535579529933750272, 4722366482869645213696] = [4679255846296629004513019714752945137972674560000, -41963785040922459006446804801759618504736112640000, 173278101172406610486689511644551274927816179712000, -436796061285479413315730235960050073044162445312000, 751370633541268164152970891278926306909654247014400, -933927929059915742246790044481318111709821612851200, 866353083048422838609016411838581125970910280417280, -610812104592730458328825868423018785169808241459200, 330188426120093192199712443532637453603261063888896, -137046897725008884127818973095180173508126191910912, 43442371280091064717984813846959181175399724875776, -10385385345800373309825311148892159522475067047936, 1831994154973950056072033140079857081874879873024, -230138735028982818921005386160950709764529061888, 19393268666995536658104016235717853196146704384, -978904406639690896791323463245176032276250624, 22300745198530623141535718272648361505980416] := by decide +kernel
theorem asinB_n232 : mulP [2163158765855301015961600, -8618075101941682269061120, 14266718691862333358080000, -12689588080386402364162048, 6543495654225361885986816, -1964151105556834701803520, 324711436434443595677696, -25291553284667805270016, 523714815076450959360, 84088025857564606464] [2163158765855301015961600, -8618075101941682269061120, 14266718691862333358080000, -12689588080386402364162048, 6543495654225361885986816, -1964151105556834701803520, 324711436434443595677696, -25291553284667805270016, 523714815076450959360, 84088025857564606464] = [4679255846296629004513019714752945137972674560000, -37284529403128933818977480764558801405931945984000, 135993573659294496370926083787668344018225751654400, -300802493671851141801966272737428546981245589913600, 450568148379229408557949618931504194596901717278720, -483359782234549980775192057410179914892788461731840, 382993277429092934695553511801861147840415797346304, -227818705880098719603367526760821049204103578648576, 102369200498341389297340653186116926802017822703616, -34676055181294887612288602542652448131990270509056, 8762758128062289160566971860367412687595737448448, -1617447121862290371992644025181245946101615296512, 209510148053741072374155745179843765831605420032, -17381763995960587428262498730303759269362663424, 649451869417683175736450949779695920077602816, 28117565023340867297879798547420229159354368, -3979156365627677706257905713516648226357248, 88076289824276548944681730074707314606080, 7070796092622453870337041459755190583296] := by decide +kernel
theorem asinB_N32 : addP (mulP [4679255846296629004513019714752945137972674560000, -37284529403128933818977480764558801405931945984000, 135993573659294496370926083787668344018225751654400, -300802493671851141801966272737428546981245589913600, 450568148379229408557949618931504194596901717278720, -483359782234549980775192057410179914892788461731840, 382993277429092934695553511801861147840415797346304, -227818705880098719603367526760821049204103578648576, 102369200498341389297340653186116926802017822703616, -34676055181294887612288602542652448131990270509056, 8762758128062289160566971860367412687595737448448, -1617447121862290371992644025181245946101615296512, 209510148053741072374155745179843765831605420032, -17381763995960587428262498730303759269362663424, 649451869417683175736450949779695920077602816, 28117565023340867297879798547420229159354368, -3979156365627677706257905713516648226357248, 88076289824276548944681730074707314606080, 7070796092622453870337041459755190583296] [1, -1]) (mulC (-1) [4679255846296629004513019714752945137972674560000, -41963785040922459006446804801759618504736112640000, 173278101172406610486689511644551274927816179712000, -436796061285479413315730235960050073044162445312000, 751370633541268164152970891278926306909654247014400, -933927929059915742246790044481318111709821612851200, 866353083048422838609016411838581125970910280417280, -610812104592730458328825868423018785169808241459200, 330188426120093192199712443532637453603261063888896, -137046897725008884127818973095180173508126191910912, 43442371280091064717984813846959181175399724875776, -10385385345800373309825311148892159522475067047936, 1831994154973950056072033140079857081874879873024, -230138735028982818921005386160950709764529061888, 19393268666995536658104016235717853196146704384, -978904406639690896791323463245176032276250624, 22300745198530623141535718272648361505980416]) = [0, -208503103817043695677552128039168507904000, 1890016819703214052907675870496341517926400, -6045666224857162120565046817955308896256000, 8509812386206945000390006434668493060177920, -1553863647086351631860365997779868566159360, -23384779923138270842626540063237706021339136, 121283538804029904829860336588125288865464320, -519741653083299004263585699477597139662536704, 1642045372607218189717366410798574118098698240, -3557970733887945129239443939320355813716918272, 5180095875793777265695263343500888777714302976, -5036885057918611705233369718767369941659156480, 3246822979281159118587142250803184663560978432, -1362052801617266054105066555634398006706438144, 357570102245348588352752312012900341358002176, -54397466587499168145673422533585238891692032, 4067232655451954255202587443591355540963328, -81005493731654095074344688614952124022784, -7070796092622453870337041459755190583296] := by decide +kernel
theorem asinB_ok32 : asinOk (dbl 1 (asinRI 32)) (dbl 0 (asinSI 32)) 6 (64 * 2 ^ 24) 64 0 6 = true := by
  unfold asinOk asinN
  rw [asinB_num32, asinB_qq32, asinB_q432, asinB_n232, asinB_N32]
  rw [Bool.and_eq_true, Bool.and_eq_true, Bool.and_eq_true]
  exact ⟨⟨⟨posOk_chunk 4 (by decide +kernel) (by decide) (by decide +kernel), posOk_chunk 4 (by decide +kernel) (by decide) (by decide +kernel)⟩, posOk_chunk 4 (by decide +kernel) (by decide) (by decide +kernel)⟩, posOk_chunk 4 (by decide +kernel) (by decide) (by decide +kernel)⟩
theorem asinB_p64 : (dbl 1 (asinRI 64)) = [16450261887729330176, -29479062052965613568, 16068753136993652736, -2598335865299279360, 27372403751025696] := by decide +kernel
theorem asinB_q64 : (dbl 0 (asinSI 64)) = [98701571326370349056, -221290079414075719680, 169555133644421529600, -50608170398041341952, 4611686018427387904] := by decide +kernel
theorem asinB_num64 : numP (dbl 1 (asinRI 64)) (dbl 0 (asinSI 64)) = [9742000182294573465808738694935280091136, -38812357023065542336217715336781435502592, 64251586992607813794013927675578422394880, -57148825976417574841021360884079491284992, 29469286631426413780588840750786212265984, -8845750431831315770002016037054012456960, 1462370230407396000324245144405517795328, -113903034160667034233191039553188659200, 2358602385200066541881906484730658816, 378698795008063769005533414190743552] := by
  unfold numP
  rw [asinB_p64, asinB_q64,
    show mulP [98701571326370349056, -221290079414075719680, 169555133644421529600, -50608170398041341952, 4611686018427387904] [98701571326370349056, -221290079414075719680, 169555133644421529600, -50608170398041341952, 4611686018427387904] = [9742000182294573465808738694935280091136, -43683357114213107012746939743152017244160, 82440015481402195630415982274016811417600, -85031949858955288390484300619998637850624, 52057476750910206326468288535176012627968, -19202790921180273168782801689831633059840, 4125056989398319889377250246205431087104, -466777983685676142275377923956425097216, 21267647932558653966460912964485513216] by decide +kernel,
    show mulP (0 :: [16450261887729330176, -29479062052965613568, 16068753136993652736, -2598335865299279360, 27372403751025696]) [98701571326370349056, -221290079414075719680, 169555133644421529600, -50608170398041341952, 4611686018427387904] = [0, 1623666697049188225509741468790193913856, -6549909505373249675560508245824910655488, 10898661519489723532109980105168499245056, -9643159453318597882412257415977859284992, 4869972073177929712091434332152283529216, -1395776801440782608598959480292899815424, 210242199974017210060341578490303217664, -13367976454415009748392820350655660032, 126232931669354589668511138063581184] by decide +kernel,
    show derP (0 :: [16450261887729330176, -29479062052965613568, 16068753136993652736, -2598335865299279360, 27372403751025696]) = [16450261887729330176, -58958124105931227136, 48206259410980958208, -10393343461197117440, 136862018755128480] by decide +kernel,
    show derP [98701571326370349056, -221290079414075719680, 169555133644421529600, -50608170398041341952, 4611686018427387904] = [-221290079414075719680, 339110267288843059200, -151824511194124025856, 18446744073709551616] by decide +kernel,
    show mulP [16450261887729330176, -58958124105931227136, 48206259410980958208, -10393343461197117440, 136862018755128480] [98701571326370349056, -221290079414075719680, 169555133644421529600, -50608170398041341952, 4611686018427387904] = [1623666697049188225509741468790193913856, -9459539251228532715770894833978280247296, 20594107869996582802503210065440410697728, -22522576573178494430691312424058703839232, 13546697286987581201900923660537043091456, -4504057893709883145910389846255452815360, 771505887296808209706656851194294566912, -54857173090895933412617827934897438720, 631164658346772948342555690317905920] by decide +kernel,
    show mulP (0 :: [16450261887729330176, -29479062052965613568, 16068753136993652736, -2598335865299279360, 27372403751025696]) [-221290079414075719680, 339110267288843059200, -151824511194124025856, 18446744073709551616] = [0, -3640279759517966635350121657671541063680, 12101876688472587793826730250065087037440, -16050061240095897098957717239852733300736, 10803163078902067358556248000224374554624, -3870602914934812505683367035501946077184, 700189512521312260715734198237827956736, -52086638544424144574524734870347841536, 504931726677418358674044552254324736] by decide +kernel]
  decide +kernel
theorem asinB_qq64 : mulP (dbl 0 (asinSI 64)) (dbl 0 (asinSI 64)) = [9742000182294573465808738694935280091136, -43683357114213107012746939743152017244160, 82440015481402195630415982274016811417600, -85031949858955288390484300619998637850624, 52057476750910206326468288535176012627968, -19202790921180273168782801689831633059840, 4125056989398319889377250246205431087104, -466777983685676142275377923956425097216, 21267647932558653966460912964485513216] := by decide +kernel
theorem asinB_q464 : mulP [9742000182294573465808738694935280091136, -43683357114213107012746939743152017244160, 82440015481402195630415982274016811417600, -85031949858955288390484300619998637850624, 52057476750910206326468288535176012627968, -19202790921180273168782801689831633059840, 4125056989398319889377250246205431087104, -466777983685676142275377923956425097216, 21267647932558653966460912964485513216] [9742000182294573465808738694935280091136, -43683357114213107012746939743152017244160, 82440015481402195630415982274016811417600, -85031949858955288390484300619998637850624, 52057476750910206326468288535176012627968, -19202790921180273168782801689831633059840, 4125056989398319889377250246205431087104, -466777983685676142275377923956425097216, 21267647932558653966460912964485513216] = [94906567551827502639128979813258454397083162264572514648213808081643364465770496, -851126545939806082416521480403662283361278456533306197201175513294120416727531520, 3514496980464248165535479697231407023203884717069801747708927019587980107762892800, -8859275815604309465243185387930593628266036141327113593194318446960394897591369728, 15239606112181372586534447196903281737184424750471230062539773202838395169827454976, -18942308405631297604970757036743169215865816098453888255241027006130883853853655040, 17571728234035793020114311406125447334430204572440692441401872849584798253201752064, -12388741644963766243052489099565758974579007817600960554733221844875213724866052096, 6697017156899349331211078092425421372148554671631698433808105869349964309401174016, -2779641414961649613452657622407959679793114327531431483613410821251464312077156352, 881115990463804518743937120086634627407341349391452216503615877896566759292403712, -210640641023084716888991229503063100379805278881476729215891586032716213821374464, 37157255396027632875098613883947657415842406134355683427715900857604181036367872, -4667767961468098063363032233190058150988988037106729872228105204027613205495808, 393342205558192949572382105044159233212725894632864142919560966240679529283584, -19854539639393134634654618754882346266766645898350337501066604202072905613312, 452312848583266388373324160190187140051835877600158453279131187530910662656] := by decide +kernel
theorem asinB_n264 : mulP [9742000182294573465808738694935280091136, -38812357023065542336217715336781435502592, 64251586992607813794013927675578422394880, -57148825976417574841021360884079491284992, 29469286631426413780588840750786212265984, -8845750431831315770002016037054012456960, 1462370230407396000324245144405517795328, -113903034160667034233191039553188659200, 2358602385200066541881906484730658816, 378698795008063769005533414190743552] [9742000182294573465808738694935280091136, -38812357023065542336217715336781435502592, 64251586992607813794013927675578422394880, -57148825976417574841021360884079491284992, 29469286631426413780588840750786212265984, -8845750431831315770002016037054012456960, 1462370230407396000324245144405517795328, -113903034160667034233191039553188659200, 2358602385200066541881906484730658816, 378698795008063769005533414190743552] = [94906567551827502639128979813258454397083162264572514648213808081643364465770496, -756219978387973164323704489393657925521484017933735802773628267249250303448449024, 2758277002075307062235871141281563528889441545307612707530620739797972151198285824, -6100998813471658798907933093942916418780954649148064234060436421458154713193119744, 9138607297031066251178759909292337323025737321789984074011212136710013042689048576, -9803701080045212889279999732426585875077960063798569051941310377265468783089156096, 7768026847598006049912873000425331595095859815139193185035488647555599489050869760, -4620712631192593042831342775360925374565998053780800816541599861221555618980036608, 2076294220298547618571827889989932699421207761158293154757244371016994482634620928, -703314002197125760627926134754385027382702014396266991737546966611974361324716032, 177729856526388194897545531771435992862350196308969164032370601870682999798890496, -32805725235362481443554281028580517922437869953791252490896641226125554466422784, 4249370594420279334930111925475067334171979427263281869971042541809090170978304, -352544062079939165577777481760297238618673774510523614059836502720224463683584, 13172450959021833490550009902112418567750148415807429916219650166734723219456, 570291752116143027723045629189666370501433526037110508310180469832744435712, -80706878357342416962945631730663641143333080026435757037434224970452434944, 1786399762356820516281296994714277100120621260868497050302074899727908864, 143412777340559504211172728943115567940501254555741298118476158629576704] := by decide +kernel
theorem asinB_N64 : addP (mulP [94906567551827502639128979813258454397083162264572514648213808081643364465770496, -756219978387973164323704489393657925521484017933735802773628267249250303448449024, 2758277002075307062235871141281563528889441545307612707530620739797972151198285824, -6100998813471658798907933093942916418780954649148064234060436421458154713193119744, 9138607297031066251178759909292337323025737321789984074011212136710013042689048576, -9803701080045212889279999732426585875077960063798569051941310377265468783089156096, 7768026847598006049912873000425331595095859815139193185035488647555599489050869760, -4620712631192593042831342775360925374565998053780800816541599861221555618980036608, 2076294220298547618571827889989932699421207761158293154757244371016994482634620928, -703314002197125760627926134754385027382702014396266991737546966611974361324716032, 177729856526388194897545531771435992862350196308969164032370601870682999798890496, -32805725235362481443554281028580517922437869953791252490896641226125554466422784, 4249370594420279334930111925475067334171979427263281869971042541809090170978304, -352544062079939165577777481760297238618673774510523614059836502720224463683584, 13172450959021833490550009902112418567750148415807429916219650166734723219456, 570291752116143027723045629189666370501433526037110508310180469832744435712, -80706878357342416962945631730663641143333080026435757037434224970452434944, 1786399762356820516281296994714277100120621260868497050302074899727908864, 143412777340559504211172728943115567940501254555741298118476158629576704] [1, -1]) (mulC (-1) [94906567551827502639128979813258454397083162264572514648213808081643364465770496, -851126545939806082416521480403662283361278456533306197201175513294120416727531520, 3514496980464248165535479697231407023203884717069801747708927019587980107762892800, -8859275815604309465243185387930593628266036141327113593194318446960394897591369728, 15239606112181372586534447196903281737184424750471230062539773202838395169827454976, -18942308405631297604970757036743169215865816098453888255241027006130883853853655040, 17571728234035793020114311406125447334430204572440692441401872849584798253201752064, -12388741644963766243052489099565758974579007817600960554733221844875213724866052096, 6697017156899349331211078092425421372148554671631698433808105869349964309401174016, -2779641414961649613452657622407959679793114327531431483613410821251464312077156352, 881115990463804518743937120086634627407341349391452216503615877896566759292403712, -210640641023084716888991229503063100379805278881476729215891586032716213821374464, 37157255396027632875098613883947657415842406134355683427715900857604181036367872, -4667767961468098063363032233190058150988988037106729872228105204027613205495808, 393342205558192949572382105044159233212725894632864142919560966240679529283584, -19854539639393134634654618754882346266766645898350337501066604202072905613312, 452312848583266388373324160190187140051835877600158453279131187530910662656]) = [0, 5415453688011196745903442711276334997879779333437963226748813312000, -967938975904066556185568792959153828453237404678012540757653116157952, 57343604099381152706113680595639946871436651603261285704268033199964160, -1678647536447754193668027995377732779533181754468124644670227413945286656, 28555018464511997395024246017762118712865335129288504492155402028075450368, -306392574080921438673273529864256384693502930204425073824763729981061726208, 2166173167150308273323779502004917149948680966553156133336098058616835145728, -10305408208669807907427074563298161348856692604462509261637111414207786516480, 33192465976234252903597663641952989204551976871337118619483622495468117819392, -72131740290563218465453560813607162289138686216060733698309413909398168797184, 105059261334040547891416703046589595017212618716312692624342935907659556061184, -102159566244872096614220929892072159232556753301149066848217089669536398966784, 65853304967879562855142825954693578198334835332924388197226159498298570833920, -27625692519231950504054613381749576026301971706533098943504813353720342380544, 7252380432487444171827654481959594069517931008580018093157134505170926829568, -1103311479056751833059315421110517151696602483663704718626745882334107533312, 82493278119699237479226928725377918243453701287304254087736299870180343808, -1642986985016261012070124265771161532180120006312755752183598741098332160, -143412777340559504211172728943115567940501254555741298118476158629576704] := by decide +kernel
theorem asinB_ok64 : asinOk (dbl 1 (asinRI 64)) (dbl 0 (asinSI 64)) 137 (64 * 2 ^ 53) 256 0 24 = true := by
  unfold asinOk asinN
  rw [asinB_num64, asinB_qq64, asinB_q464, asinB_n264, asinB_N64]
  rw [Bool.and_eq_true, Bool.and_eq_true, Bool.and_eq_true]
  exact ⟨⟨⟨posOk_chunk 4 (by decide +kernel) (by decide) (posOk_chunk 4 (by decide +kernel) (by decide) (posOk_chunk 4 (by decide +kernel) (by decide) (posOk_chunk 4 (by decide +kernel) (by decide) (posOk_chunk 4 (by decide +kernel) (by decide) (by decide +kernel))))), posOk_chunk 4 (by decide +kernel) (by decide) (posOk_chunk 4 (by decide +kernel) (by decide) (posOk_chunk 4 (by decide +kernel) (by decide) (posOk_chunk 4 (by decide +kernel) (by decide) (posOk_chunk 4 (by decide +kernel) (by decide) (by decide +kernel)))))⟩, posOk_chunk 4 (by decide +kernel) (by decide) (posOk_chunk 4 (by decide +kernel) (by decide) (posOk_chunk 4 (by decide +kernel) (by decide) (posOk_chunk 4 (by decide +kernel) (by decide) (posOk_chunk 4 (by decide +kernel) (by decide) (by decide +kernel)))))⟩, posOk_chunk 4 (by decide +kernel) (by decide) (posOk_chunk 4 (by decide +kernel) (by decide) (posOk_chunk 4 (by decide +kernel) (by decide) (posOk_chunk 4 (by decide +kernel) (by decide) (posOk_chunk 4 (by decide +kernel) (by decide) (by decide +kernel)))))⟩

theorem evalP_dbl (t : ℝ) : ∀ (p : List Int) (k : Nat), evalP (dbl k p) t = 2 ^ k * evalP p (2 * t)
  | [], k => by simp [dbl, evalP]
  | a :: p, k => by simp only [dbl, evalP]; rw [evalP_dbl t p (k + 1)]; push_cast; ring

theorem ulp_32 : ulpHalf 32 = 1 / 2 ^ 24 := rfl
theorem ulp_64 : ulpHalf 64 = 1 / 2 ^ 53 := rfl
/-- one piece of the error bound -/
theorem piece {a b ea eb k c : ℝ} (h : |eb - ea| ≤ k * (b - a)) (h0 : |ea| ≤ c) : |eb| ≤ c + k * (b - a) := by
  have := abs_add_le (eb - ea) ea
  rw [sub_add_cancel] at this; linarith
theorem atan_cert0 {w : Nat} (h : W w) {x : ℝ} (h0 : 0 ≤ x) (h1 : x ≤ 0.6605) : |ratF (atanPI w) (atanQI w) x - Real.arctan x| ≤ 1.05 * ulpHalf w * x := by
  rcases h with h | h <;> subst h
  · have := atan_seg (by norm_num) (by norm_num) (by norm_num) atan_ok32 (le_refl 0) h0 (by norm_num) (by
      have : x ^ 2 ≤ 0.6605 ^ 2 := pow_le_pow_left₀ h0 h1 2
      norm_num at *; linarith)
    rw [ratF_zero, Real.arctan_zero, sub_zero, sub_zero, sub_zero] at this
    refine le_trans this ?_
    rw [ulp_32]; norm_num; linarith
  · have ha : ∀ y : ℝ, 0 ≤ y → y ≤ 0.596 → |ratF (atanPI 64) (atanQI 64) y - Real.arctan y| ≤ 44 / (64 * 2 ^ 53) * y := by
      intro y y0 y1
      have := atan_seg (by norm_num) (by norm_num) (by norm_num) atan_ok64a (le_refl 0) y0 (by norm_num) (by
        have : y ^ 2 ≤ 0.596 ^ 2 := pow_le_pow_left₀ y0 y1 2
        norm_num at *; linarith)
      rw [ratF_zero, Real.arctan_zero, sub_zero, sub_zero, sub_zero] at this
      refine le_trans this (le_of_eq ?_); norm_num
    have hb : ∀ y : ℝ, 0.596 ≤ y → y ≤ 0.646 → |ratF (atanPI 64) (atanQI 64) y - Real.arctan y| ≤ 44 / (64 * 2 ^ 53) * 0.596 + 142 / (64 * 2 ^ 53) * (y - 0.596) := by
      intro y y0 y1
      have := atan_seg (by norm_num) (by norm_num) (by norm_num) atan_ok64b (by norm_num) y0 (by norm_num) (by
        have : y ^ 2 ≤ 0.646 ^ 2 := pow_le_pow_left₀ (le_trans (by norm_num) y0) y1 2
        norm_num at *; linarith)
      refine le_trans (piece this (ha _ (by norm_num) (le_refl _))) (le_of_eq ?_); norm_num
    have hc : ∀ y : ℝ, 0.646 ≤ y → y ≤ 0.6605 → |ratF (atanPI 64) (atanQI 64) y - Real.arctan y| ≤ 44 / (64 * 2 ^ 53) * 0.596 + 142 / (64 * 2 ^ 53) * (0.646 - 0.596) + 708 / (64 * 2 ^ 53) * (y - 0.646) := by
      intro y y0 y1
      have := atan_seg (by norm_num) (by norm_num) (by norm_num) atan_ok64c (by norm_num) y0 (by norm_num) (by
        have : y ^ 2 ≤ 0.6605 ^ 2 := pow_le_pow_left₀ (le_trans (by norm_num) y0) y1 2
        norm_num at *; linarith)
      refine le_trans (piece this (hb _ (by norm_num) (le_refl _))) (le_of_eq ?_); norm_num
    rw [ulp_64]
    rcases le_total x 0.596 with g1 | g1
    · refine le_trans (ha x h0 g1) ?_; norm_num at g1 h0 h1 ⊢; linarith
    · rcases le_total x 0.646 with g2 | g2
      · refine le_trans (hb x g1 g2) ?_; norm_num at g1 g2 h0 h1 ⊢; linarith
      · refine le_trans (hc x g2 h1) ?_; norm_num at g1 g2 h0 h1 ⊢; linarith
theorem asin_cert0 {w : Nat} (h : W w) {x : ℝ} (h0 : 0 ≤ x) (h1 : x ≤ 0.625) : |ratF (asinPI w) (asinQI w) x - Real.arcsin x| ≤ 1.2 * ulpHalf w * x := by
  have hx2 : x ^ 2 ≤ 2 / 5 := le_trans (pow_le_pow_left₀ h0 h1 2) (by norm_num)
  rcases h with h | h <;> subst h
  · have := asin_seg (by norm_num) (by norm_num) (by norm_num) (by norm_num) asin_ok32 (le_refl 0) h0 (by norm_num) (by
      have : x ^ 2 ≤ 0.625 ^ 2 := pow_le_pow_left₀ h0 h1 2
      norm_num at *; linarith) hx2
    rw [ratF_zero, Real.arcsin_zero, sub_zero, sub_zero, sub_zero] at this
    refine le_trans this ?_
    rw [ulp_32]; norm_num; linarith
  · have ha : ∀ y : ℝ, 0 ≤ y → y ≤ 0.556 → |ratF (asinPI 64) (asinQI 64) y - Real.arcsin y| ≤ 0.7 * (68 / (64 * 2 ^ 53)) * y := by
      intro y y0 y1
      have hy2 : y ^ 2 ≤ 0.556 ^ 2 := pow_le_pow_left₀ y0 y1 2
      have := asin_seg (by norm_num) (by norm_num) (by norm_num) (by norm_num) asin_ok64a (le_refl 0) y0 (by norm_num) (by
        norm_num at *; linarith) (by norm_num at *; linarith)
      rw [ratF_zero, Real.arcsin_zero, sub_zero, sub_zero, sub_zero] at this
      refine le_trans this (le_of_eq ?_); norm_num
    have hb : ∀ y : ℝ, 0.556 ≤ y → y ≤ 0.597 → |ratF (asinPI 64) (asinQI 64) y - Real.arcsin y| ≤ 0.7 * (68 / (64 * 2 ^ 53)) * 0.556 + 0.7 * (113 / (64 * 2 ^ 53)) * (y - 0.556) := by
      intro y y0 y1
      have hy2 : y ^ 2 ≤ 0.597 ^ 2 := pow_le_pow_left₀ (le_trans (by norm_num) y0) y1 2
      have := asin_seg (by norm_num) (by norm_num) (by norm_num) (by norm_num) asin_ok64b (by norm_num) y0 (by norm_num) (by
        norm_num at *; linarith) (by norm_num at *; linarith)
      refine le_trans (piece this (ha _ (by norm_num) (le_refl _))) (le_of_eq ?_); norm_num
    have hc : ∀ y : ℝ, 0.597 ≤ y → y ≤ 0.625 → |ratF (asinPI 64) (asinQI 64) y - Real.arcsin y| ≤
        0.7 * (68 / (64 * 2 ^ 53)) * 0.556 + 0.7 * (113 / (64 * 2 ^ 53)) * (0.597 - 0.556) + 0.7 * (832 / (64 * 2 ^ 53)) * (y - 0.597) := by
      intro y y0 y1
      have hy2 : y ^ 2 ≤ 0.625 ^ 2 := pow_le_pow_left₀ (le_trans (by norm_num) y0) y1 2
      have := asin_seg (by norm_num) (by norm_num) (by norm_num) (by norm_num) asin_ok64c (by norm_num) y0 (by norm_num) (by
        norm_num at *; linarith) (by norm_num at *; linarith)
      refine le_trans (piece this (hb _ (by norm_num) (le_refl _))) (le_of_eq ?_); norm_num
    rw [ulp_64]
    rcases le_total x 0.556 with g1 | g1
    · refine le_trans (ha x h0 g1) ?_; norm_num at g1 h0 h1 ⊢; linarith
    · rcases le_total x 0.597 with g2 | g2
      · refine le_trans (hb x g1 g2) ?_; norm_num at g1 g2 h0 h1 ⊢; linarith
      · refine le_trans (hc x g2 h1) ?_; norm_num at g1 g2 h0 h1 ⊢; linarith
theorem asinB_cert {w : Nat} (h : W w) {x : ℝ} (h0 : 0 ≤ x) (h1 : x ^ 2 ≤ 3 / 16) : |ratF (dbl 1 (asinRI w)) (dbl 0 (asinSI w)) x - Real.arcsin x| ≤ 1.5 * ulpHalf w * x := by
  rcases h with h | h <;> subst h
  · have := asin_seg (by norm_num) (by norm_num) (by norm_num) (by norm_num) asinB_ok32 (le_refl 0) h0 (by norm_num) (by
      norm_num at *; linarith) (by linarith)
    rw [ratF_zero, Real.arcsin_zero, sub_zero, sub_zero, sub_zero] at this
    refine le_trans this ?_
    rw [ulp_32]; norm_num; linarith
  · have := asin_seg (by norm_num) (by norm_num) (by norm_num) (by norm_num) asinB_ok64 (le_refl 0) h0 (by norm_num) (by
      norm_num at *; linarith) (by linarith)
    rw [ratF_zero, Real.arcsin_zero, sub_zero, sub_zero, sub_zero] at this
    refine le_trans this ?_
    rw [ulp_64]; norm_num; linarith
theorem ratF_neg (P Q : List Int) (x : ℝ) : ratF P Q (-x) = - ratF P Q x := by unfold ratF; rw [neg_sq]; ring
theorem atan_cert {w : Nat} (h : W w) {x : ℝ} (h1 : |x| ≤ 0.6605) : |ratF (atanPI w) (atanQI w) x - Real.arctan x| ≤ 1.05 * ulpHalf w * |x| := by
  rcases le_total 0 x with h0 | h0
  · rw [abs_of_nonneg h0] at h1 ⊢; exact atan_cert0 h h0 h1
  · rw [abs_of_nonpos h0] at h1 ⊢
    have := atan_cert0 h (by linarith : 0 ≤ -x) h1
    rw [ratF_neg, Real.arctan_neg, ← neg_sub', abs_neg] at this
    exact this
end Dpm.X86
