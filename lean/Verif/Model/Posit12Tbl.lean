/-!
# The committed lookup tables of `posit12` — src/posit12_tbl.cpp

A transcription of the array initialisers; `tools/tables.py` writes this file.
-/

namespace Verif.Posit12

/-- `opinv` — src/posit12_tbl.cpp:4-5, 64 entries of 16 bits to a literal, the first one in the low bits. -/
def opinvTab : List Nat := [
  0x7c007c107c107c207c307c407c607c807c807c907c907ca07cb07cc07ce07d007d007d107d107d207d307d407d607d807d807d907d907da07db07dc07de07e007e007e107e207e407e407e507e607e807e807e907ea07ec07ec07ed07ee07f007f007f207f207f407f407f607f607f807f907fa07fb07fc07fd07fe07ff0000,
  0x78007810781078207820783078407850786078707880789078a078c078e0790079007910791079207920793079407950796079707980799079a079c079e07a007a007a107a107a207a207a307a407a507a607a707a807a907aa07ac07ae07b007b007b107b107b207b207b307b407b507b607b707b807b907ba07bc07be07c0,
  0x74007410741074207420743074307440745074507460747074807480749074a074b074c074d074e074f0750075107530754075507570758075a075c075e0760076007610761076207620763076307640765076507660767076807680769076a076b076c076d076e076f0770077107730774077507770778077a077c077e0780,
  0x70007010701070207020703070307040705070507060707070807080709070a070b070c070d070e070f0710071107130714071507170718071a071c071e0720072007210721072207220723072307240725072507260727072807280729072a072b072c072d072e072f0730073107330734073507370738073a073c073e0740,
  0x6c006c106c106c206c206c306c306c406c406c506c606c606c706c706c806c906c906ca06cb06cb06cc06cd06ce06ce06cf06d006d106d106d206d306d406d506d606d706d806d906da06db06dc06dd06de06df06e006e106e206e306e506e606e706e906ea06eb06ed06ee06f006f106f306f506f606f806fa06fc06fe0700,
  0x6800681068106820682068306830684068406850686068606870687068806890689068a068b068b068c068d068e068e068f06900691069106920693069406950696069706980699069a069b069c069d069e069f06a006a106a206a306a506a606a706a906aa06ab06ad06ae06b006b106b306b506b606b806ba06bc06be06c0,
  0x6400641064106420642064306430644064406450646064606470647064806490649064a064b064b064c064d064e064e064f06500651065106520653065406550656065706580659065a065b065c065d065e065f06600661066206630665066606670669066a066b066d066e067006710673067506760678067a067c067e0680,
  0x6000601060106020602060306030604060406050606060606070607060806090609060a060b060b060c060d060e060e060f06100611061106120613061406150616061706180619061a061b061c061d061e061f06200621062206230625062606270629062a062b062d062e063006310633063506360638063a063c063e0640,
  0x5ab05ac05ad05ae05af05b005b105b205b305b405b505b605b705b805b905ba05bb05bc05bd05be05bf05c005c105c305c405c505c605c705c905ca05cb05cc05ce05cf05d005d205d305d405d605d705d905da05db05dd05de05e005e105e305e505e605e805ea05eb05ed05ef05f005f205f405f605f805fa05fc05fe0600,
  0x58005810581058205820583058305840584058505850586058605870587058805890589058a058a058b058c058c058d058d058e058f058f059005900591059205920593059405940595059605970597059805990599059a059b059c059c059d059e059f059f05a005a105a205a305a305a405a505a605a705a805a805a905aa,
  0x52b052c052d052e052f0530053105320533053405350536053705380539053a053b053c053d053e053f05400541054305440545054605470549054a054b054c054e054f0550055205530554055605570559055a055b055d055e056005610563056505660568056a056b056d056f05700572057405760578057a057c057e0580,
  0x50005010501050205020503050305040504050505050506050605070507050805090509050a050a050b050c050c050d050d050e050f050f051005100511051205120513051405140515051605170517051805190519051a051b051c051c051d051e051f051f052005210522052305230524052505260527052805280529052a,
  0x4ab04ac04ad04ae04af04b004b104b204b304b404b504b604b704b804b904ba04bb04bc04bd04be04bf04c004c104c304c404c504c604c704c904ca04cb04cc04ce04cf04d004d204d304d404d604d704d904da04db04dd04de04e004e104e304e504e604e804ea04eb04ed04ef04f004f204f404f604f804fa04fc04fe0500,
  0x48004810481048204820483048304840484048504850486048604870487048804890489048a048a048b048c048c048d048d048e048f048f049004900491049204920493049404940495049604970497049804990499049a049b049c049c049d049e049f049f04a004a104a204a304a304a404a504a604a704a804a804a904aa,
  0x42b042c042d042e042f0430043104320433043404350436043704380439043a043b043c043d043e043f04400441044304440445044604470449044a044b044c044e044f0450045204530454045604570459045a045b045d045e046004610463046504660468046a046b046d046f04700472047404760478047a047c047e0480,
  0x40004010401040204020403040304040404040504050406040604070407040804090409040a040a040b040c040c040d040d040e040f040f041004100411041204120413041404140415041604170417041804190419041a041b041c041c041d041e041f041f042004210422042304230424042504260427042804280429042a,
  0x3ab03ac03ad03ae03af03b003b103b203b303b403b503b603b703b803b903ba03bb03bc03bd03be03bf03c003c103c303c403c503c603c703c903ca03cb03cc03ce03cf03d003d203d303d403d603d703d903da03db03dd03de03e003e103e303e503e603e803ea03eb03ed03ef03f003f203f403f603f803fa03fc03fe0400,
  0x38003810381038203820383038303840384038503850386038603870387038803890389038a038a038b038c038c038d038d038e038f038f039003900391039203920393039403940395039603970397039803990399039a039b039c039c039d039e039f039f03a003a103a203a303a303a403a503a603a703a803a803a903aa,
  0x32b032c032d032e032f0330033103320333033403350336033703380339033a033b033c033d033e033f03400341034303440345034603470349034a034b034c034e034f0350035203530354035603570359035a035b035d035e036003610363036503660368036a036b036d036f03700372037403760378037a037c037e0380,
  0x30003010301030203020303030303040304030503050306030603070307030803090309030a030a030b030c030c030d030d030e030f030f031003100311031203120313031403140315031603170317031803190319031a031b031c031c031d031e031f031f032003210322032303230324032503260327032803280329032a,
  0x2ab02ac02ad02ae02af02b002b102b202b302b402b502b602b702b802b902ba02bb02bc02bd02be02bf02c002c102c302c402c502c602c702c902ca02cb02cc02ce02cf02d002d202d302d402d602d702d902da02db02dd02de02e002e102e302e502e602e802ea02eb02ed02ef02f002f202f402f602f802fa02fc02fe0300,
  0x28002810281028202820283028302840284028502850286028602870287028802890289028a028a028b028c028c028d028d028e028f028f029002900291029202920293029402940295029602970297029802990299029a029b029c029c029d029e029f029f02a002a102a202a302a302a402a502a602a702a802a802a902aa,
  0x22b022c022d022e022f0230023102320233023402350236023702380239023a023b023c023d023e023f02400241024302440245024602470249024a024b024c024e024f0250025202530254025602570259025a025b025d025e026002610263026502660268026a026b026d026f02700272027402760278027a027c027e0280,
  0x20002010201020202020203020302040204020502050206020602070207020802090209020a020a020b020c020c020d020d020e020f020f021002100211021202120213021402140215021602170217021802190219021a021b021c021c021d021e021f021f022002210222022302230224022502260227022802280229022a,
  0x1c001c101c101c201c201c301c301c401c401c501c601c601c701c701c801c901c901ca01cb01cb01cc01cd01ce01ce01cf01d001d101d101d201d301d401d501d601d701d801d901da01db01dc01dd01de01df01e001e101e201e301e501e601e701e901ea01eb01ed01ee01f001f101f301f501f601f801fa01fc01fe0200,
  0x1800181018101820182018301830184018401850186018601870187018801890189018a018b018b018c018d018e018e018f01900191019101920193019401950196019701980199019a019b019c019d019e019f01a001a101a201a301a501a601a701a901aa01ab01ad01ae01b001b101b301b501b601b801ba01bc01be01c0,
  0x1400141014101420142014301430144014401450146014601470147014801490149014a014b014b014c014d014e014e014f01500151015101520153015401550156015701580159015a015b015c015d015e015f01600161016201630165016601670169016a016b016d016e017001710173017501760178017a017c017e0180,
  0x1000101010101020102010301030104010401050106010601070107010801090109010a010b010b010c010d010e010e010f01100111011101120113011401150116011701180119011a011b011c011d011e011f01200121012201230125012601270129012a012b012d012e013001310133013501360138013a013c013e0140,
  0xc000c100c100c200c200c300c300c400c500c500c600c700c800c800c900ca00cb00cc00cd00ce00cf00d000d100d300d400d500d700d800da00dc00de00e000e000e100e100e200e200e300e300e400e500e500e600e700e800e800e900ea00eb00ec00ed00ee00ef00f000f100f300f400f500f700f800fa00fc00fe0100,
  0x8000810081008200820083008300840085008500860087008800880089008a008b008c008d008e008f0090009100930094009500970098009a009c009e00a000a000a100a100a200a200a300a300a400a500a500a600a700a800a800a900aa00ab00ac00ad00ae00af00b000b100b300b400b500b700b800ba00bc00be00c0,
  0x4000410041004200420043004400450046004700480049004a004c004e0050005000510051005200520053005400550056005700580059005a005c005e0060006000610061006200620063006400650066006700680069006a006c006e0070007000710071007200720073007400750076007700780079007a007c007e0080,
  0x100020003000400050006000700080008000a000a000c000c000e000e00100010001100120014001400150016001800180019001a001c001c001d001e002000200021002100220023002400260028002800290029002a002b002c002e003000300031003100320033003400360038003800390039003a003b003c003e0040,
  0xffc2ffc4ffc5ffc6ffc7ffc7ffc8ffc8ffcaffccffcdffceffcfffcfffd0ffd0ffd2ffd4ffd5ffd6ffd7ffd7ffd8ffd8ffdaffdcffddffdeffdfffdfffe0ffe0ffe2ffe3ffe4ffe4ffe6ffe7ffe8ffe8ffeaffebffecffecffeeffeffff0fff0fff2fff2fff4fff4fff6fff6fff8fff8fff9fffafffbfffcfffdfffefffff800,
  0xff82ff84ff86ff87ff88ff89ff8aff8bff8cff8dff8eff8eff8fff8fff90ff90ff92ff94ff96ff97ff98ff99ff9aff9bff9cff9dff9eff9eff9fff9fffa0ffa0ffa2ffa4ffa6ffa7ffa8ffa9ffaaffabffacffadffaeffaeffafffafffb0ffb0ffb2ffb4ffb6ffb7ffb8ffb9ffbaffbbffbcffbdffbeffbeffbfffbfffc0ffc0,
  0xff42ff44ff46ff48ff49ff4bff4cff4dff4fff50ff51ff52ff53ff54ff55ff56ff57ff58ff58ff59ff5aff5bff5bff5cff5dff5dff5eff5eff5fff5fff60ff60ff62ff64ff66ff68ff69ff6bff6cff6dff6fff70ff71ff72ff73ff74ff75ff76ff77ff78ff78ff79ff7aff7bff7bff7cff7dff7dff7eff7eff7fff7fff80ff80,
  0xff02ff04ff06ff08ff09ff0bff0cff0dff0fff10ff11ff12ff13ff14ff15ff16ff17ff18ff18ff19ff1aff1bff1bff1cff1dff1dff1eff1eff1fff1fff20ff20ff22ff24ff26ff28ff29ff2bff2cff2dff2fff30ff31ff32ff33ff34ff35ff36ff37ff38ff38ff39ff3aff3bff3bff3cff3dff3dff3eff3eff3fff3fff40ff40,
  0xfec2fec4fec6fec8fecafecbfecdfecffed0fed2fed3fed5fed6fed7fed9fedafedbfeddfedefedffee0fee1fee2fee3fee4fee5fee6fee7fee8fee9feeafeebfeecfeedfeeefeeffeeffef0fef1fef2fef2fef3fef4fef5fef5fef6fef7fef7fef8fef9fef9fefafefafefbfefcfefcfefdfefdfefefefefefffeffff00ff00,
  0xfe82fe84fe86fe88fe8afe8bfe8dfe8ffe90fe92fe93fe95fe96fe97fe99fe9afe9bfe9dfe9efe9ffea0fea1fea2fea3fea4fea5fea6fea7fea8fea9feaafeabfeacfeadfeaefeaffeaffeb0feb1feb2feb2feb3feb4feb5feb5feb6feb7feb7feb8feb9feb9febafebafebbfebcfebcfebdfebdfebefebefebffebffec0fec0,
  0xfe42fe44fe46fe48fe4afe4bfe4dfe4ffe50fe52fe53fe55fe56fe57fe59fe5afe5bfe5dfe5efe5ffe60fe61fe62fe63fe64fe65fe66fe67fe68fe69fe6afe6bfe6cfe6dfe6efe6ffe6ffe70fe71fe72fe72fe73fe74fe75fe75fe76fe77fe77fe78fe79fe79fe7afe7afe7bfe7cfe7cfe7dfe7dfe7efe7efe7ffe7ffe80fe80,
  0xfe02fe04fe06fe08fe0afe0bfe0dfe0ffe10fe12fe13fe15fe16fe17fe19fe1afe1bfe1dfe1efe1ffe20fe21fe22fe23fe24fe25fe26fe27fe28fe29fe2afe2bfe2cfe2dfe2efe2ffe2ffe30fe31fe32fe32fe33fe34fe35fe35fe36fe37fe37fe38fe39fe39fe3afe3afe3bfe3cfe3cfe3dfe3dfe3efe3efe3ffe3ffe40fe40,
  0xfdd7fdd8fdd8fdd9fddafddbfddcfdddfdddfddefddffde0fde1fde1fde2fde3fde4fde4fde5fde6fde7fde7fde8fde9fde9fdeafdebfdecfdecfdedfdeefdeefdeffdf0fdf0fdf1fdf1fdf2fdf3fdf3fdf4fdf4fdf5fdf6fdf6fdf7fdf7fdf8fdf9fdf9fdfafdfafdfbfdfbfdfcfdfcfdfdfdfdfdfefdfefdfffdfffe00fe00,
  0xfd82fd84fd86fd88fd8afd8cfd8efd90fd91fd93fd95fd96fd98fd9afd9bfd9dfd9ffda0fda2fda3fda5fda6fda7fda9fdaafdacfdadfdaefdb0fdb1fdb2fdb4fdb5fdb6fdb7fdb9fdbafdbbfdbcfdbdfdbffdc0fdc1fdc2fdc3fdc4fdc5fdc6fdc7fdc8fdc9fdcafdcbfdccfdcdfdcefdcffdd0fdd1fdd2fdd3fdd4fdd5fdd6,
  0xfd57fd58fd58fd59fd5afd5bfd5cfd5dfd5dfd5efd5ffd60fd61fd61fd62fd63fd64fd64fd65fd66fd67fd67fd68fd69fd69fd6afd6bfd6cfd6cfd6dfd6efd6efd6ffd70fd70fd71fd71fd72fd73fd73fd74fd74fd75fd76fd76fd77fd77fd78fd79fd79fd7afd7afd7bfd7bfd7cfd7cfd7dfd7dfd7efd7efd7ffd7ffd80fd80,
  0xfd02fd04fd06fd08fd0afd0cfd0efd10fd11fd13fd15fd16fd18fd1afd1bfd1dfd1ffd20fd22fd23fd25fd26fd27fd29fd2afd2cfd2dfd2efd30fd31fd32fd34fd35fd36fd37fd39fd3afd3bfd3cfd3dfd3ffd40fd41fd42fd43fd44fd45fd46fd47fd48fd49fd4afd4bfd4cfd4dfd4efd4ffd50fd51fd52fd53fd54fd55fd56,
  0xfcd7fcd8fcd8fcd9fcdafcdbfcdcfcddfcddfcdefcdffce0fce1fce1fce2fce3fce4fce4fce5fce6fce7fce7fce8fce9fce9fceafcebfcecfcecfcedfceefceefceffcf0fcf0fcf1fcf1fcf2fcf3fcf3fcf4fcf4fcf5fcf6fcf6fcf7fcf7fcf8fcf9fcf9fcfafcfafcfbfcfbfcfcfcfcfcfdfcfdfcfefcfefcfffcfffd00fd00,
  0xfc82fc84fc86fc88fc8afc8cfc8efc90fc91fc93fc95fc96fc98fc9afc9bfc9dfc9ffca0fca2fca3fca5fca6fca7fca9fcaafcacfcadfcaefcb0fcb1fcb2fcb4fcb5fcb6fcb7fcb9fcbafcbbfcbcfcbdfcbffcc0fcc1fcc2fcc3fcc4fcc5fcc6fcc7fcc8fcc9fccafccbfcccfccdfccefccffcd0fcd1fcd2fcd3fcd4fcd5fcd6,
  0xfc57fc58fc58fc59fc5afc5bfc5cfc5dfc5dfc5efc5ffc60fc61fc61fc62fc63fc64fc64fc65fc66fc67fc67fc68fc69fc69fc6afc6bfc6cfc6cfc6dfc6efc6efc6ffc70fc70fc71fc71fc72fc73fc73fc74fc74fc75fc76fc76fc77fc77fc78fc79fc79fc7afc7afc7bfc7bfc7cfc7cfc7dfc7dfc7efc7efc7ffc7ffc80fc80,
  0xfc02fc04fc06fc08fc0afc0cfc0efc10fc11fc13fc15fc16fc18fc1afc1bfc1dfc1ffc20fc22fc23fc25fc26fc27fc29fc2afc2cfc2dfc2efc30fc31fc32fc34fc35fc36fc37fc39fc3afc3bfc3cfc3dfc3ffc40fc41fc42fc43fc44fc45fc46fc47fc48fc49fc4afc4bfc4cfc4dfc4efc4ffc50fc51fc52fc53fc54fc55fc56,
  0xfbd7fbd8fbd8fbd9fbdafbdbfbdcfbddfbddfbdefbdffbe0fbe1fbe1fbe2fbe3fbe4fbe4fbe5fbe6fbe7fbe7fbe8fbe9fbe9fbeafbebfbecfbecfbedfbeefbeefbeffbf0fbf0fbf1fbf1fbf2fbf3fbf3fbf4fbf4fbf5fbf6fbf6fbf7fbf7fbf8fbf9fbf9fbfafbfafbfbfbfbfbfcfbfcfbfdfbfdfbfefbfefbfffbfffc00fc00,
  0xfb82fb84fb86fb88fb8afb8cfb8efb90fb91fb93fb95fb96fb98fb9afb9bfb9dfb9ffba0fba2fba3fba5fba6fba7fba9fbaafbacfbadfbaefbb0fbb1fbb2fbb4fbb5fbb6fbb7fbb9fbbafbbbfbbcfbbdfbbffbc0fbc1fbc2fbc3fbc4fbc5fbc6fbc7fbc8fbc9fbcafbcbfbccfbcdfbcefbcffbd0fbd1fbd2fbd3fbd4fbd5fbd6,
  0xfb57fb58fb58fb59fb5afb5bfb5cfb5dfb5dfb5efb5ffb60fb61fb61fb62fb63fb64fb64fb65fb66fb67fb67fb68fb69fb69fb6afb6bfb6cfb6cfb6dfb6efb6efb6ffb70fb70fb71fb71fb72fb73fb73fb74fb74fb75fb76fb76fb77fb77fb78fb79fb79fb7afb7afb7bfb7bfb7cfb7cfb7dfb7dfb7efb7efb7ffb7ffb80fb80,
  0xfb02fb04fb06fb08fb0afb0cfb0efb10fb11fb13fb15fb16fb18fb1afb1bfb1dfb1ffb20fb22fb23fb25fb26fb27fb29fb2afb2cfb2dfb2efb30fb31fb32fb34fb35fb36fb37fb39fb3afb3bfb3cfb3dfb3ffb40fb41fb42fb43fb44fb45fb46fb47fb48fb49fb4afb4bfb4cfb4dfb4efb4ffb50fb51fb52fb53fb54fb55fb56,
  0xfad7fad8fad8fad9fadafadbfadcfaddfaddfadefadffae0fae1fae1fae2fae3fae4fae4fae5fae6fae7fae7fae8fae9fae9faeafaebfaecfaecfaedfaeefaeefaeffaf0faf0faf1faf1faf2faf3faf3faf4faf4faf5faf6faf6faf7faf7faf8faf9faf9fafafafafafbfafbfafcfafcfafdfafdfafefafefafffafffb00fb00,
  0xfa82fa84fa86fa88fa8afa8cfa8efa90fa91fa93fa95fa96fa98fa9afa9bfa9dfa9ffaa0faa2faa3faa5faa6faa7faa9faaafaacfaadfaaefab0fab1fab2fab4fab5fab6fab7fab9fabafabbfabcfabdfabffac0fac1fac2fac3fac4fac5fac6fac7fac8fac9facafacbfaccfacdfacefacffad0fad1fad2fad3fad4fad5fad6,
  0xfa57fa58fa58fa59fa5afa5bfa5cfa5dfa5dfa5efa5ffa60fa61fa61fa62fa63fa64fa64fa65fa66fa67fa67fa68fa69fa69fa6afa6bfa6cfa6cfa6dfa6efa6efa6ffa70fa70fa71fa71fa72fa73fa73fa74fa74fa75fa76fa76fa77fa77fa78fa79fa79fa7afa7afa7bfa7bfa7cfa7cfa7dfa7dfa7efa7efa7ffa7ffa80fa80,
  0xfa02fa04fa06fa08fa0afa0cfa0efa10fa11fa13fa15fa16fa18fa1afa1bfa1dfa1ffa20fa22fa23fa25fa26fa27fa29fa2afa2cfa2dfa2efa30fa31fa32fa34fa35fa36fa37fa39fa3afa3bfa3cfa3dfa3ffa40fa41fa42fa43fa44fa45fa46fa47fa48fa49fa4afa4bfa4cfa4dfa4efa4ffa50fa51fa52fa53fa54fa55fa56,
  0xf9c2f9c4f9c6f9c8f9caf9cbf9cdf9cff9d0f9d2f9d3f9d5f9d6f9d7f9d9f9daf9dbf9ddf9def9dff9e0f9e1f9e2f9e3f9e4f9e5f9e6f9e7f9e8f9e9f9eaf9ebf9ecf9edf9eef9eff9eff9f0f9f1f9f2f9f2f9f3f9f4f9f5f9f5f9f6f9f7f9f7f9f8f9f9f9f9f9faf9faf9fbf9fcf9fcf9fdf9fdf9fef9fef9fff9fffa00fa00,
  0xf982f984f986f988f98af98bf98df98ff990f992f993f995f996f997f999f99af99bf99df99ef99ff9a0f9a1f9a2f9a3f9a4f9a5f9a6f9a7f9a8f9a9f9aaf9abf9acf9adf9aef9aff9aff9b0f9b1f9b2f9b2f9b3f9b4f9b5f9b5f9b6f9b7f9b7f9b8f9b9f9b9f9baf9baf9bbf9bcf9bcf9bdf9bdf9bef9bef9bff9bff9c0f9c0,
  0xf942f944f946f948f94af94bf94df94ff950f952f953f955f956f957f959f95af95bf95df95ef95ff960f961f962f963f964f965f966f967f968f969f96af96bf96cf96df96ef96ff96ff970f971f972f972f973f974f975f975f976f977f977f978f979f979f97af97af97bf97cf97cf97df97df97ef97ef97ff97ff980f980,
  0xf902f904f906f908f90af90bf90df90ff910f912f913f915f916f917f919f91af91bf91df91ef91ff920f921f922f923f924f925f926f927f928f929f92af92bf92cf92df92ef92ff92ff930f931f932f932f933f934f935f935f936f937f937f938f939f939f93af93af93bf93cf93cf93df93df93ef93ef93ff93ff940f940,
  0xf8c2f8c4f8c6f8c8f8c9f8cbf8ccf8cdf8cff8d0f8d1f8d2f8d3f8d4f8d5f8d6f8d7f8d8f8d8f8d9f8daf8dbf8dbf8dcf8ddf8ddf8def8def8dff8dff8e0f8e0f8e2f8e4f8e6f8e8f8e9f8ebf8ecf8edf8eff8f0f8f1f8f2f8f3f8f4f8f5f8f6f8f7f8f8f8f8f8f9f8faf8fbf8fbf8fcf8fdf8fdf8fef8fef8fff8fff900f900,
  0xf882f884f886f888f889f88bf88cf88df88ff890f891f892f893f894f895f896f897f898f898f899f89af89bf89bf89cf89df89df89ef89ef89ff89ff8a0f8a0f8a2f8a4f8a6f8a8f8a9f8abf8acf8adf8aff8b0f8b1f8b2f8b3f8b4f8b5f8b6f8b7f8b8f8b8f8b9f8baf8bbf8bbf8bcf8bdf8bdf8bef8bef8bff8bff8c0f8c0,
  0xf842f844f846f847f848f849f84af84bf84cf84df84ef84ef84ff84ff850f850f852f854f856f857f858f859f85af85bf85cf85df85ef85ef85ff85ff860f860f862f864f866f867f868f869f86af86bf86cf86df86ef86ef86ff86ff870f870f872f874f876f877f878f879f87af87bf87cf87df87ef87ef87ff87ff880f880,
  0xf801f802f803f804f805f806f807f808f80af80af80cf80cf80ef80ef810f810f812f813f814f814f816f817f818f818f81af81bf81cf81cf81ef81ff820f820f822f824f825f826f827f827f828f828f82af82cf82df82ef82ff82ff830f830f832f834f835f836f837f837f838f838f83af83cf83df83ef83ff83ff840f840]

/-- `opsquare` — src/posit12_tbl.cpp:6-7, 64 entries of 16 bits to a literal, the first one in the low bits. -/
def opsquareTab : List Nat := [
  0x3000300030003000300030003000300020002000200020002000200020002000100010001000100010001000100010001000100010001000100010001000100010001000100010001000100010001000100010001000100010001000100010001000100010001000100010001000100010001000100010001000100010000,
  0xf000f000f000f000e000e000e000e000e000d000d000d000c000c000c000c000b000b000b000b000a000a000a000a000a000900090009000800080008000800070007000700070007000700070007000700060006000600060006000600060005000500050005000500050005000500050004000400040004000400040004,
  0x1f001f001f001f001e001e001e001e001d001d001d001d001d001c001c001c001c001c001b001b001b001a001a001a0019001900190019001800180018001800170017001700170016001600160016001500150015001500150014001400140014001400130013001300120012001200110011001100110010001000100010,
  0x3f003f003e003e003d003d003c003c003b003b003a003a003a0039003900390038003800370037003600350035003400330033003200320031003100300030002f002f002e002e002d002d002c002c002b002b002a002a002a0029002900290028002800270027002600250025002400230023002200220021002100200020,
  0x5f005f005e005e005d005d005c005c005b005b005a005a0059005900580058005800570057005600560055005500550054005400530053005300520052005200510051005000500050004f004e004e004d004c004c004b004a004a004900490048004700470046004500450044004400430043004200420041004100400040,
  0x7f007f007e007e007d007d007c007c007b007b007a007a0079007900780078007800770077007600760075007500750074007400730073007300720072007200710071007000700070006f006e006e006d006c006c006b006a006a006900690068006700670066006500650064006400630063006200620061006100600060,
  0xbf00be00bd00bc00bb00ba00b900b800b700b600b500b400b300b200b100b100b000af00ae00ad00ac00ab00ab00aa00a900a800a700a700a600a500a400a400a300a200a100a100a0009f009d009c009b00990098009700950094009300920090008f008e008d008b008a0089008800870086008500840083008200810080,
  0xff00fe00fd00fc00fb00fa00f900f800f700f600f500f400f300f200f100f100f000ef00ee00ed00ec00eb00eb00ea00e900e800e700e700e600e500e400e400e300e200e100e100e000df00dd00dc00db00d900d800d700d500d400d300d200d000cf00ce00cd00cb00ca00c900c800c700c600c500c400c300c200c100c0,
  0x147014601450145014401430142014201410140013f013e013d013b013a0139013701360134013301320130012f012e012c012b012a01290127012601250124012201210120011f011d011c011b011a01190117011601150114011301120111010f010e010d010c010b010a0109010801070106010501040103010201010100,
  0x17f017e017d017c017b017a0179017801770176017501740173017201710170016f016e016d016c016b016a016a01690168016701660165016401630162016201610160015f015e015d015c015b015b015a015901580157015601560155015401530152015201510150014f014e014e014d014c014b014b014a014901480148,
  0x1c701c601c501c501c401c301c201c201c101c001bf01be01bd01bb01ba01b901b701b601b401b301b201b001af01ae01ac01ab01aa01a901a701a601a501a401a201a101a0019f019d019c019b019a01990197019601950194019301920191018f018e018d018c018b018a0189018801870186018501840183018201810180,
  0x1ff01fe01fd01fc01fb01fa01f901f801f701f601f501f401f301f201f101f001ef01ee01ed01ec01eb01ea01ea01e901e801e701e601e501e401e301e201e201e101e001df01de01dd01dc01db01db01da01d901d801d701d601d601d501d401d301d201d201d101d001cf01ce01ce01cd01cc01cb01cb01ca01c901c801c8,
  0x28e028d028b028a028802870285028402820281027f027d027a027702740272026f026c0269026702640261025f025c0259025702540252024f024d024a0248024502430240023e023b0239023602340232022f022d022b0228022602240222021f021d021b02190216021402120210020e020c020a02080206020402020200,
  0x2fe02fc02fa02f802f602f402f202f002ee02ec02ea02e802e602e402e202e102df02dd02db02d902d702d502d402d202d002ce02cc02cb02c902c702c502c402c202c002be02bd02bb02b902b702b602b402b202b102af02ad02ac02aa02a902a702a502a402a202a0029f029d029c029a0299029702960294029302910290,
  0x38e038d038b038a038803870385038403820381037f037d037a037703740372036f036c0369036703640361035f035c0359035703540352034f034d034a0348034503430340033e033b0339033603340332032f032d032b0328032603240322031f031d031b03190316031403120310030e030c030a03080306030403020300,
  0x3fe03fc03fa03f803f603f403f203f003ee03ec03ea03e803e603e403e203e103df03dd03db03d903d703d503d403d203d003ce03cc03cb03c903c703c503c403c203c003be03bd03bb03b903b703b603b403b203b103af03ad03ac03aa03a903a703a503a403a203a0039f039d039c039a0399039703960394039303910390,
  0x48e048d048b048a048804870485048404820481047f047d047a047704740472046f046c0469046704640461045f045c0459045704540452044f044d044a0448044504430440043e043b0439043604340432042f042d042b0428042604240422041f041d041b04190416041404120410040e040c040a04080406040404020400,
  0x4fe04fc04fa04f804f604f404f204f004ee04ec04ea04e804e604e404e204e104df04dd04db04d904d704d504d404d204d004ce04cc04cb04c904c704c504c404c204c004be04bd04bb04b904b704b604b404b204b104af04ad04ac04aa04a904a704a504a404a204a0049f049d049c049a0499049704960494049304910490,
  0x58e058d058b058a058805870585058405820581057f057d057a057705740572056f056c0569056705640561055f055c0559055705540552054f054d054a0548054505430540053e053b0539053605340532052f052d052b0528052605240522051f051d051b05190516051405120510050e050c050a05080506050405020500,
  0x5fe05fc05fa05f805f605f405f205f005ee05ec05ea05e805e605e405e205e105df05dd05db05d905d705d505d405d205d005ce05cc05cb05c905c705c505c405c205c005be05bd05bb05b905b705b605b405b205b105af05ad05ac05aa05a905a705a505a405a205a0059f059d059c059a0599059705960594059305910590,
  0x647064606450645064406430642064206410640063f063e063d063b063a0639063706360634063306320630062f062e062c062b062a06290627062606250624062206210620061f061d061c061b061a06190617061606150614061306120611060f060e060d060c060b060a0609060806070606060506040603060206010600,
  0x67f067e067d067c067b067a0679067806770676067506740673067206710670066f066e066d066c066b066a066a06690668066706660665066406630662066206610660065f065e065d065c065b065b065a065906580657065606560655065406530652065206510650064f064e064e064d064c064b064b064a064906480648,
  0x6c706c606c506c506c406c306c206c206c106c006bf06be06bd06bb06ba06b906b706b606b406b306b206b006af06ae06ac06ab06aa06a906a706a606a506a406a206a106a0069f069d069c069b069a06990697069606950694069306920691068f068e068d068c068b068a0689068806870686068506840683068206810680,
  0x6ff06fe06fd06fc06fb06fa06f906f806f706f606f506f406f306f206f106f006ef06ee06ed06ec06eb06ea06ea06e906e806e706e606e506e406e306e206e206e106e006df06de06dd06dc06db06db06da06d906d806d706d606d606d506d406d306d206d206d106d006cf06ce06ce06cd06cc06cb06cb06ca06c906c806c8,
  0x73f073e073d073c073b073a07390738073707360735073407330732073107310730072f072e072d072c072b072b072a0729072807270727072607250724072407230722072107210720071f071d071c071b07190718071707150714071307120710070f070e070d070b070a0709070807070706070507040703070207010700,
  0x77f077e077d077c077b077a07790778077707760775077407730772077107710770076f076e076d076c076b076b076a0769076807670767076607650764076407630762076107610760075f075d075c075b07590758075707550754075307520750074f074e074d074b074a0749074807470746074507440743074207410740,
  0x79f079f079e079e079d079d079c079c079b079b079a079a0799079907980798079807970797079607960795079507950794079407930793079307920792079207910791079007900790078f078e078e078d078c078c078b078a078a078907890788078707870786078507850784078407830783078207820781078107800780,
  0x7bf07bf07be07be07bd07bd07bc07bc07bb07bb07ba07ba07b907b907b807b807b807b707b707b607b607b507b507b507b407b407b307b307b307b207b207b207b107b107b007b007b007af07ae07ae07ad07ac07ac07ab07aa07aa07a907a907a807a707a707a607a507a507a407a407a307a307a207a207a107a107a007a0,
  0x7df07df07de07de07dd07dd07dc07dc07db07db07da07da07da07d907d907d907d807d807d707d707d607d507d507d407d307d307d207d207d107d107d007d007cf07cf07ce07ce07cd07cd07cc07cc07cb07cb07ca07ca07ca07c907c907c907c807c807c707c707c607c507c507c407c307c307c207c207c107c107c007c0,
  0x7ef07ef07ef07ef07ee07ee07ee07ee07ed07ed07ed07ed07ed07ec07ec07ec07ec07ec07eb07eb07eb07ea07ea07ea07e907e907e907e907e807e807e807e807e707e707e707e707e607e607e607e607e507e507e507e507e507e407e407e407e407e407e307e307e307e207e207e207e107e107e107e107e007e007e007e0,
  0x7fb07fb07fb07fb07fb07fb07fb07fb07fb07fa07fa07fa07fa07fa07fa07fa07f907f907f907f907f907f907f907f907f907f807f807f807f807f807f807f807f707f707f707f707f607f607f607f607f607f507f507f507f407f407f407f407f307f307f307f307f207f207f207f207f207f107f107f107f007f007f007f0,
  0x7ff07ff07ff07ff07ff07ff07ff07ff07ff07ff07ff07ff07ff07ff07ff07ff07ff07ff07ff07ff07ff07ff07ff07ff07ff07ff07ff07ff07ff07ff07ff07ff07fe07fe07fe07fe07fe07fe07fe07fe07fe07fe07fe07fe07fe07fe07fe07fe07fd07fd07fd07fd07fd07fd07fd07fd07fc07fc07fc07fc07fc07fc07fc07fc,
  0x7fc07fc07fc07fc07fc07fc07fc07fd07fd07fd07fd07fd07fd07fd07fd07fe07fe07fe07fe07fe07fe07fe07fe07fe07fe07fe07fe07fe07fe07fe07fe07ff07ff07ff07ff07ff07ff07ff07ff07ff07ff07ff07ff07ff07ff07ff07ff07ff07ff07ff07ff07ff07ff07ff07ff07ff07ff07ff07ff07ff07ff07ff07fff800,
  0x7f007f007f007f107f107f107f207f207f207f207f207f307f307f307f307f407f407f407f407f507f507f507f607f607f607f607f607f707f707f707f707f807f807f807f807f807f807f807f907f907f907f907f907f907f907f907f907fa07fa07fa07fa07fa07fa07fa07fb07fb07fb07fb07fb07fb07fb07fb07fb07fc,
  0x7e007e007e007e107e107e107e107e207e207e207e307e307e307e407e407e407e407e407e507e507e507e507e507e607e607e607e607e707e707e707e707e807e807e807e807e907e907e907e907ea07ea07ea07eb07eb07eb07ec07ec07ec07ec07ec07ed07ed07ed07ed07ed07ee07ee07ee07ee07ef07ef07ef07ef07f0,
  0x7c007c107c107c207c207c307c307c407c507c507c607c707c707c807c807c907c907c907ca07ca07ca07cb07cb07cc07cc07cd07cd07ce07ce07cf07cf07d007d007d107d107d207d207d307d307d407d507d507d607d707d707d807d807d907d907d907da07da07da07db07db07dc07dc07dd07dd07de07de07df07df07e0,
  0x7a007a107a107a207a207a307a307a407a407a507a507a607a707a707a807a907a907aa07aa07ab07ac07ac07ad07ae07ae07af07b007b007b007b107b107b207b207b207b307b307b307b407b407b507b507b507b607b607b707b707b807b807b807b907b907ba07ba07bb07bb07bc07bc07bd07bd07be07be07bf07bf07c0,
  0x7800781078107820782078307830784078407850785078607870787078807890789078a078a078b078c078c078d078e078e078f0790079007900791079107920792079207930793079307940794079507950795079607960797079707980798079807990799079a079a079b079b079c079c079d079d079e079e079f079f07a0,
  0x74107420743074407450746074707480749074a074b074d074e074f07500752075307540755075707580759075b075c075d075f0760076107610762076307640764076507660767076707680769076a076b076b076c076d076e076f07700771077107720773077407750776077707780779077a077b077c077d077e077f0780,
  0x70107020703070407050706070707080709070a070b070d070e070f07100712071307140715071707180719071b071c071d071f0720072107210722072307240724072507260727072707280729072a072b072b072c072d072e072f07300731073107320733073407350736073707380739073a073b073c073d073e073f0740,
  0x6c806c906ca06cb06cb06cc06cd06ce06ce06cf06d006d106d206d206d306d406d506d606d606d706d806d906da06db06db06dc06dd06de06df06e006e106e206e206e306e406e506e606e706e806e906ea06ea06eb06ec06ed06ee06ef06f006f106f206f306f406f506f606f706f806f906fa06fb06fc06fd06fe06ff0700,
  0x68106820683068406850686068706880689068a068b068c068d068e068f06910692069306940695069606970699069a069b069c069d069f06a006a106a206a406a506a606a706a906aa06ab06ac06ae06af06b006b206b306b406b606b706b906ba06bb06bd06be06bf06c006c106c206c206c306c406c506c506c606c706c8,
  0x6480649064a064b064b064c064d064e064e064f065006510652065206530654065506560656065706580659065a065b065b065c065d065e065f06600661066206620663066406650666066706680669066a066a066b066c066d066e066f0670067106720673067406750676067706780679067a067b067c067d067e067f0680,
  0x60106020603060406050606060706080609060a060b060c060d060e060f06110612061306140615061606170619061a061b061c061d061f06200621062206240625062606270629062a062b062c062e062f0630063206330634063606370639063a063b063d063e063f06400641064206420643064406450645064606470648,
  0x59105930594059605970599059a059c059d059f05a005a205a405a505a705a905aa05ac05ad05af05b105b205b405b605b705b905bb05bd05be05c005c205c405c505c705c905cb05cc05ce05d005d205d405d505d705d905db05dd05df05e105e205e405e605e805ea05ec05ee05f005f205f405f605f805fa05fc05fe0600,
  0x502050405060508050a050c050e05100512051405160519051b051d051f0522052405260528052b052d052f0532053405360539053b053e0540054305450548054a054d054f0552055405570559055c055f0561056405670569056c056f057205740577057a057d057f058105820584058505870588058a058b058d058e0590,
  0x49104930494049604970499049a049c049d049f04a004a204a404a504a704a904aa04ac04ad04af04b104b204b404b604b704b904bb04bd04be04c004c204c404c504c704c904cb04cc04ce04d004d204d404d504d704d904db04dd04df04e104e204e404e604e804ea04ec04ee04f004f204f404f604f804fa04fc04fe0500,
  0x402040404060408040a040c040e04100412041404160419041b041d041f0422042404260428042b042d042f0432043404360439043b043e0440044304450448044a044d044f0452045404570459045c045f0461046404670469046c046f047204740477047a047d047f048104820484048504870488048a048b048d048e0490,
  0x39103930394039603970399039a039c039d039f03a003a203a403a503a703a903aa03ac03ad03af03b103b203b403b603b703b903bb03bd03be03c003c203c403c503c703c903cb03cc03ce03d003d203d403d503d703d903db03dd03df03e103e203e403e603e803ea03ec03ee03f003f203f403f603f803fa03fc03fe0400,
  0x302030403060308030a030c030e03100312031403160319031b031d031f0322032403260328032b032d032f0332033403360339033b033e0340034303450348034a034d034f0352035403570359035c035f0361036403670369036c036f037203740377037a037d037f038103820384038503870388038a038b038d038e0390,
  0x29102930294029602970299029a029c029d029f02a002a202a402a502a702a902aa02ac02ad02af02b102b202b402b602b702b902bb02bd02be02c002c202c402c502c702c902cb02cc02ce02d002d202d402d502d702d902db02dd02df02e102e202e402e602e802ea02ec02ee02f002f202f402f602f802fa02fc02fe0300,
  0x202020402060208020a020c020e02100212021402160219021b021d021f0222022402260228022b022d022f0232023402360239023b023e0240024302450248024a024d024f0252025402570259025c025f0261026402670269026c026f027202740277027a027d027f028102820284028502870288028a028b028d028e0290,
  0x1c801c901ca01cb01cb01cc01cd01ce01ce01cf01d001d101d201d201d301d401d501d601d601d701d801d901da01db01db01dc01dd01de01df01e001e101e201e201e301e401e501e601e701e801e901ea01ea01eb01ec01ed01ee01ef01f001f101f201f301f401f501f601f701f801f901fa01fb01fc01fd01fe01ff0200,
  0x18101820183018401850186018701880189018a018b018c018d018e018f01910192019301940195019601970199019a019b019c019d019f01a001a101a201a401a501a601a701a901aa01ab01ac01ae01af01b001b201b301b401b601b701b901ba01bb01bd01be01bf01c001c101c201c201c301c401c501c501c601c701c8,
  0x1480149014a014b014b014c014d014e014e014f015001510152015201530154015501560156015701580159015a015b015b015c015d015e015f01600161016201620163016401650166016701680169016a016a016b016c016d016e016f0170017101720173017401750176017701780179017a017b017c017d017e017f0180,
  0x10101020103010401050106010701080109010a010b010c010d010e010f01110112011301140115011601170119011a011b011c011d011f01200121012201240125012601270129012a012b012c012e012f0130013201330134013601370139013a013b013d013e013f01400141014201420143014401450145014601470148,
  0xc100c200c300c400c500c600c700c800c900ca00cb00cd00ce00cf00d000d200d300d400d500d700d800d900db00dc00dd00df00e000e100e100e200e300e400e400e500e600e700e700e800e900ea00eb00eb00ec00ed00ee00ef00f000f100f100f200f300f400f500f600f700f800f900fa00fb00fc00fd00fe00ff0100,
  0x8100820083008400850086008700880089008a008b008d008e008f00900092009300940095009700980099009b009c009d009f00a000a100a100a200a300a400a400a500a600a700a700a800a900aa00ab00ab00ac00ad00ae00af00b000b100b100b200b300b400b500b600b700b800b900ba00bb00bc00bd00be00bf00c0,
  0x600061006100620062006300630064006400650065006600670067006800690069006a006a006b006c006c006d006e006e006f0070007000700071007100720072007200730073007300740074007500750075007600760077007700780078007800790079007a007a007b007b007c007c007d007d007e007e007f007f0080,
  0x400041004100420042004300430044004400450045004600470047004800490049004a004a004b004c004c004d004e004e004f0050005000500051005100520052005200530053005300540054005500550055005600560057005700580058005800590059005a005a005b005b005c005c005d005d005e005e005f005f0060,
  0x2000210021002200220023002300240025002500260027002700280028002900290029002a002a002a002b002b002c002c002d002d002e002e002f002f0030003000310031003200320033003300340035003500360037003700380038003900390039003a003a003a003b003b003c003c003d003d003e003e003f003f0040,
  0x1000100010001100110011001100120012001200130013001300140014001400140014001500150015001500150016001600160016001700170017001700180018001800180019001900190019001a001a001a001b001b001b001c001c001c001c001c001d001d001d001d001d001e001e001e001e001f001f001f001f0020,
  0x40004000400040004000400050005000500050005000500050005000500060006000600060006000600060007000700070007000700070007000700070008000800080008000900090009000a000a000a000a000a000b000b000b000b000c000c000c000c000d000d000d000e000e000e000e000e000f000f000f000f0010,
  0x1000100010001000100010001000100010001000100010001000100010001000100010001000100010001000100010001000100010001000100010001000100010001000100010001000100010001000100010001000100010001000100020002000200020002000200020002000300030003000300030003000300030004]

/-- `opexp2` — src/posit12_tbl.cpp:8-9, 64 entries of 16 bits to a literal, the first one in the low bits. -/
def opexp2Tab : List Nat := [
  0x400040004000400040004000400040004000400040004000400040004000400040004000400040004000400040004000400040004000400040004000400040004000400040004000400040004000400040004000400040004000400040004000400040004000400040004000400040004000400040004000400040004000400,
  0x400040004000400040004000400040004000400040004000400040004000400040004000400040004000400040004000400040004000400040004000400040004000400040004000400040004000400040004000400040004000400040004000400040004000400040004000400040004000400040004000400040004000400,
  0x400040004000400040004000400040004000400040004000400040004000400040004000400040004000400040004000400040004000400040004000400040004000400040004000400040004000400040004000400040004000400040004000400040004000400040004000400040004000400040004000400040004000400,
  0x400040004000400040004000400040004000400040004000400040004000400040004000400040004000400040004000400040004000400040004000400040004000400040004000400040004000400040004000400040004000400040004000400040004000400040004000400040004000400040004000400040004000400,
  0x400040004000400040004000400040004000400040004000400040004000400040004000400040004000400040004000400040004000400040004000400040004000400040004000400040004000400040004000400040004000400040004000400040004000400040004000400040004000400040004000400040004000400,
  0x401040104010401040104010401040104010401040104010401040104010401040104010401040104010401040104010401040104010401040104010401040104010401040104010400040004000400040004000400040004000400040004000400040004000400040004000400040004000400040004000400040004000400,
  0x402040204020402040204020402040204020402040204020402040204020402040204020402040204020402040204020402040204020402040204020402040204020402040204020401040104010401040104010401040104010401040104010401040104010401040104010401040104010401040104010401040104010401,
  0x405040504050405040504050405040504050405040504050405040504040404040404040404040404040404040404040404040404040404040404040404040404040404040404040404040304030403040304030403040304030403040304030403040304030403040304030403040304030403040304020402040204020402,
  0x408040804080408040804080408040804080408040804080407040704070407040704070407040704070407040704070407040704070407040704070407040704070407040604060406040604060406040604060406040604060406040604060406040604060406040604060406040604050405040504050405040504050405,
  0x40b040b040b040b040b040b040b040b040b040b040b040b040a040a040a040a040a040a040a040a040a040a040a040a040a040a040a040a040a040a040a040a040a0409040904090409040904090409040904090409040904090409040904090409040904090409040904090409040804080408040804080408040804080408,
  0x4110411041104110411041104110410041004100410041004100410041004100410040f040f040f040f040f040f040f040f040f040f040f040e040e040e040e040e040e040e040e040e040e040d040d040d040d040d040d040d040d040d040d040d040c040c040c040c040c040c040c040c040c040c040b040b040b040b040b,
  0x418041804170417041704170417041704170417041704160416041604160416041604160416041604160415041504150415041504150415041504150415041404140414041404140414041404140414041404130413041304130413041304130413041304130412041204120412041204120412041204120412041104110411,
  0x42504250425042504240424042404240423042304230423042304220422042204220421042104210421042104200420042004200420041f041f041f041f041e041e041e041e041e041d041d041d041d041d041c041c041c041c041b041b041b041b041b041a041a041a041a041a041904190419041904190418041804180418,
  0x4340434043404340433043304330433043204320432043204310431043104310430043004300430042f042f042f042f042e042e042e042e042e042d042d042d042d042c042c042c042c042b042b042b042b042b042a042a042a042a042904290429042904280428042804280428042704270427042704260426042604260425,
  0x45604560455045404540453045304520452045104500450044f044f044e044e044d044d044c044b044b044a044a0449044904480448044704470446044504450444044404430443044204420441044104400440043f043f043e043e043d043d043c043c043b043a043a04390439043804380437043704360436043604350435,
  0x47f047e047d047d047c047b047b047a047904790478047704770476047504750474047304730472047104710470046f046f046e046d046d046c046c046b046a046a0469046804680467046604660465046504640463046304620462046104600460045f045e045e045d045d045c045b045b045a045a04590459045804570457,
  0x4b404b304b204b104b004af04ae04ad04ac04ab04aa04a904a804a704a604a504a504a404a304a204a104a0049f049e049e049d049c049b049a0499049904980497049604950494049404930492049104900490048f048e048d048d048c048b048a048a04890488048704870486048504840484048304820482048104800480,
  0x4fe04fd04fb04fa04f904f704f604f504f304f204f104ef04ee04ed04ec04ea04e904e804e604e504e404e304e204e004df04de04dd04db04da04d904d804d704d604d404d304d204d104d004cf04ce04cd04cb04ca04c904c804c704c604c504c404c304c204c104c004bf04be04bd04bc04ba04b904b804b704b604b604b5,
  0x57d057a057705750572056f056d056a0568056505630560055e055b05590557055405520550054e054b05490547054505430541053f053d053a05380536053505330531052f052d052b052905270525052405220520051e051d051b0519051805160514051305110510050e050d050b050a0508050705050504050205010500,
  0x5fd05fa05f705f505f205ef05ed05ea05e805e505e305e005de05db05d905d705d405d205d005ce05cb05c905c705c505c305c105bf05bd05ba05b805b605b505b305b105af05ad05ab05a905a705a505a405a205a0059e059d059b0599059805960594059305910590058e058d058b058a0588058705850584058205810580,
  0x67d067a0677067506720670066d066b06690667066406620660065e065c065a06580656065406520651064f064d064c064a0648064706450644064206410640063d063a0637063506320630062d062b06290627062406220620061e061c061a06180616061406120611060f060d060c060a0608060706050604060206010600,
  0x6fd06fa06f706f506f206f006ed06eb06e906e706e406e206e006de06dc06da06d806d606d406d206d106cf06cd06cc06ca06c806c706c506c406c206c106c006bd06ba06b706b506b206b006ad06ab06a906a706a406a206a0069e069c069a06980696069406920691068f068d068c068a0688068706850684068206810680,
  0x77d077a0778077507730771076f076d076b0769076707660764076207610760075d075a0758075507530751074f074d074b0749074707460744074207410740073d073a0738073507330731072f072d072b0729072707260724072207210720071d071a0718071507130711070f070d070b0709070707060704070207010700,
  0x7be07bd07bc07ba07b907b807b707b607b507b407b307b307b207b107b007b007ae07ad07ac07aa07a907a807a707a607a507a407a307a307a207a107a007a0079e079d079c079a079907980797079607950794079307930792079107900790078e078d078c078a078907880787078607850784078307830782078107800780,
  0x7fb07fb07fb07fb07fa07fa07fa07fa07f907f907f907f907f807f807f807f807f707f607f607f607f507f407f407f407f307f207f207f207f107f007f007f007ee07ed07ec07ec07ea07e907e807e807e607e507e407e407e207e107e007e007dd07db07d907d807d507d307d107d007cd07cb07c907c807c507c307c107c0,
  0x7ff07ff07ff07ff07ff07ff07ff07ff07ff07ff07ff07ff07ff07ff07ff07ff07ff07ff07ff07ff07ff07ff07ff07ff07ff07ff07ff07ff07ff07ff07ff07ff07ff07ff07ff07ff07ff07ff07ff07ff07ff07ff07ff07ff07ff07ff07ff07ff07fe07fe07fe07fe07fe07fe07fe07fe07fd07fd07fd07fd07fc07fc07fc07fc,
  0x7ff07ff07ff07ff07ff07ff07ff07ff07ff07ff07ff07ff07ff07ff07ff07ff07ff07ff07ff07ff07ff07ff07ff07ff07ff07ff07ff07ff07ff07ff07ff07ff07ff07ff07ff07ff07ff07ff07ff07ff07ff07ff07ff07ff07ff07ff07ff07ff07ff07ff07ff07ff07ff07ff07ff07ff07ff07ff07ff07ff07ff07ff07ff07ff,
  0xf800f800f800f800f800f800f800f800f800f800f800f800f800f800f800f800f800f800f800f800f800f800f800f800f800f800f800f800f800f800f800f800f800f800f800f800f800f800f800f800f800f800f800f800f800f800f800f800f800f800f800f800f800f800f800f800f800f800f800f800f800f800f800f800,
  0xf800f800f800f800f800f800f800f800f800f800f800f800f800f800f800f800f800f800f800f800f800f800f800f800f800f800f800f800f800f800f800f800f800f800f800f800f800f800f800f800f800f800f800f800f800f800f800f800f800f800f800f800f800f800f800f800f800f800f800f800f800f800f800f800,
  0xf800f800f800f800f800f800f800f800f800f800f800f800f800f800f800f800f800f800f800f800f800f800f800f800f800f800f800f800f800f800f800f800f800f800f800f800f800f800f800f800f800f800f800f800f800f800f800f800f800f800f800f800f800f800f800f800f800f800f800f800f800f800f800f800,
  0xf800f800f800f800f800f800f800f800f800f800f800f800f800f800f800f800f800f800f800f800f800f800f800f800f800f800f800f800f800f800f800f800f800f800f800f800f800f800f800f800f800f800f800f800f800f800f800f800f800f800f800f800f800f800f800f800f800f800f800f800f800f800f800f800,
  0xf800f800f800f800f800f800f800f800f800f800f800f800f800f800f800f800f800f800f800f800f800f800f800f800f800f800f800f800f800f800f800f800f800f800f800f800f800f800f800f800f800f800f800f800f800f800f800f800f800f800f800f800f800f800f800f800f800f800f800f800f800f800f800f800,
  0xf800,
  0x0,
  0x0,
  0x0,
  0x1000100010001000100010001000000000000000000000000000000000000000000000000000000000000000000000000000000000000000000000000000000000000000000000000000000000000000000000000000000000000000000000000000000000000000000000000000000000000000000000000000000000000,
  0x1000100010001000100010001000100010001000100010001000100010001000100010001000100010001000100010001000100010001000100010001000100010001000100010001000100010001000100010001000100010001000100010001000100010001000100010001000100010001000100010001000100010001,
  0x3000300030003000200020002000200010001000100010001000100010001000100010001000100010001000100010001000100010001000100010001000100010001000100010001000100010001000100010001000100010001000100010001000100010001000100010001000100010001000100010001000100010001,
  0x3d003b003900380035003300310030002d002b002900280025002300210020001e001d001c001c001a00190018001800160015001400140012001100100010000f000e000e000e000d000c000c000c000b000a000a000a00090008000800080007000700070007000600060006000600050005000500050004000400040004,
  0x7e007d007c007a007900780077007600750074007300730072007100700070006e006d006c006a006900680067006600650064006300630062006100600060005e005d005c005a005900580057005600550054005300530052005100500050004e004d004c004a004900480047004600450044004300430042004100400040,
  0xfd00fa00f800f500f300f100ef00ed00eb00e900e700e600e400e200e100e000dd00da00d800d500d300d100cf00cd00cb00c900c700c600c400c200c100c000bd00ba00b800b500b300b100af00ad00ab00a900a700a600a400a200a100a0009d009a0098009500930091008f008d008b0089008700860084008200810080,
  0x17d017a0177017501720170016d016b01690167016401620160015e015c015a01580156015401520151014f014d014c014a0148014701450144014201410140013d013a0137013501320130012d012b01290127012401220120011e011c011a01180116011401120111010f010d010c010a0108010701050104010201010100,
  0x1fd01fa01f701f501f201f001ed01eb01e901e701e401e201e001de01dc01da01d801d601d401d201d101cf01cd01cc01ca01c801c701c501c401c201c101c001bd01ba01b701b501b201b001ad01ab01a901a701a401a201a0019e019c019a01980196019401920191018f018d018c018a0188018701850184018201810180,
  0x27d027a027702750272026f026d026a0268026502630260025e025b02590257025402520250024e024b02490247024502430241023f023d023a02380236023502330231022f022d022b022902270225022402220220021e021d021b0219021802160214021302110210020e020d020b020a0208020702050204020202010200,
  0x2fd02fa02f702f502f202ef02ed02ea02e802e502e302e002de02db02d902d702d402d202d002ce02cb02c902c702c502c302c102bf02bd02ba02b802b602b502b302b102af02ad02ab02a902a702a502a402a202a0029e029d029b0299029802960294029302910290028e028d028b028a0288028702850284028202810280,
  0x3340333033203310330032f032e032d032c032b032a03290328032703260325032503240323032203210320031f031e031e031d031c031b031a0319031903180317031603150314031403130312031103100310030f030e030d030d030c030b030a030a03090308030703070306030503040304030303020302030103000300,
  0x37e037d037b037a0379037703760375037303720371036f036e036d036c036a03690368036603650364036303620360035f035e035d035b035a035903580357035603540353035203510350034f034e034d034b034a0349034803470346034503440343034203410340033f033e033d033c033a033903380337033603360335,
  0x3970397039603960396039503950394039403940393039303920392039203910391039003900390038f038f038f038e038e038d038d038d038c038c038b038b038b038a038a038a0389038903880388038803870387038703860386038603850385038403840384038303830383038203820382038103810381038003800380,
  0x3b403b403b303b303b203b203b103b103b003b003af03af03ae03ae03ad03ad03ac03ac03ab03ab03ab03aa03aa03a903a903a803a803a703a703a603a603a503a503a503a403a403a303a303a203a203a103a103a103a003a0039f039f039e039e039e039d039d039c039c039b039b039b039a039a03990399039903980398,
  0x3c503c403c403c403c403c303c303c303c303c203c203c203c103c103c103c103c003c003c003c003bf03bf03bf03bf03be03be03be03be03bd03bd03bd03bd03bc03bc03bc03bc03bb03bb03bb03ba03ba03ba03ba03b903b903b903b903b803b803b803b803b703b703b703b703b603b603b603b603b603b503b503b503b5,
  0x3d603d603d603d603d503d503d503d403d403d403d403d303d303d303d203d203d203d203d103d103d103d003d003d003d003cf03cf03cf03ce03ce03ce03ce03cd03cd03cd03cd03cc03cc03cc03cb03cb03cb03cb03ca03ca03ca03c903c903c903c903c803c803c803c803c703c703c703c703c603c603c603c503c503c5,
  0x3e003e003e003e003e003df03df03df03df03df03df03de03de03de03de03de03de03de03dd03dd03dd03dd03dd03dd03dd03dc03dc03dc03dc03dc03dc03db03db03db03db03db03db03db03da03da03da03da03da03da03da03d903d903d903d903d903d903d903d803d803d803d803d803d803d703d703d703d703d703d7,
  0x3ea03ea03ea03ea03e903e903e903e903e903e903e903e803e803e803e803e803e803e703e703e703e703e703e703e603e603e603e603e603e603e603e503e503e503e503e503e503e403e403e403e403e403e403e403e303e303e303e303e303e303e203e203e203e203e203e203e203e103e103e103e103e103e103e003e0,
  0x3ef03ef03ef03ef03ef03ef03ef03ef03ef03ef03ef03ee03ee03ee03ee03ee03ee03ee03ee03ee03ee03ee03ee03ed03ed03ed03ed03ed03ed03ed03ed03ed03ed03ed03ed03ec03ec03ec03ec03ec03ec03ec03ec03ec03ec03ec03ec03ec03eb03eb03eb03eb03eb03eb03eb03eb03eb03eb03eb03eb03ea03ea03ea03ea,
  0x3f503f403f403f403f403f403f403f403f403f403f403f403f403f303f303f303f303f303f303f303f303f303f303f303f303f203f203f203f203f203f203f203f203f203f203f203f203f203f103f103f103f103f103f103f103f103f103f103f103f103f003f003f003f003f003f003f003f003f003f003f003f003ef03ef,
  0x3fa03fa03fa03fa03fa03fa03f903f903f903f903f903f903f903f903f903f903f903f803f803f803f803f803f803f803f803f803f803f803f803f703f703f703f703f703f703f703f703f703f703f703f703f603f603f603f603f603f603f603f603f603f603f603f603f503f503f503f503f503f503f503f503f503f503f5,
  0x3fd03fd03fd03fd03fd03fc03fc03fc03fc03fc03fc03fc03fc03fc03fc03fc03fc03fc03fc03fc03fc03fc03fc03fc03fc03fc03fc03fc03fc03fb03fb03fb03fb03fb03fb03fb03fb03fb03fb03fb03fb03fb03fb03fb03fb03fb03fb03fb03fb03fb03fb03fb03fa03fa03fa03fa03fa03fa03fa03fa03fa03fa03fa03fa,
  0x3fe03fe03fe03fe03fe03fe03fe03fe03fe03fe03fe03fe03fe03fe03fe03fe03fe03fe03fe03fe03fe03fe03fe03fe03fe03fe03fe03fe03fd03fd03fd03fd03fd03fd03fd03fd03fd03fd03fd03fd03fd03fd03fd03fd03fd03fd03fd03fd03fd03fd03fd03fd03fd03fd03fd03fd03fd03fd03fd03fd03fd03fd03fd03fd,
  0x3ff03ff03ff03ff03ff03ff03ff03ff03ff03ff03ff03ff03ff03ff03ff03ff03ff03ff03ff03ff03ff03ff03ff03ff03ff03ff03ff03ff03fe03fe03fe03fe03fe03fe03fe03fe03fe03fe03fe03fe03fe03fe03fe03fe03fe03fe03fe03fe03fe03fe03fe03fe03fe03fe03fe03fe03fe03fe03fe03fe03fe03fe03fe03fe,
  0x3ff03ff03ff03ff03ff03ff03ff03ff03ff03ff03ff03ff03ff03ff03ff03ff03ff03ff03ff03ff03ff03ff03ff03ff03ff03ff03ff03ff03ff03ff03ff03ff03ff03ff03ff03ff03ff03ff03ff03ff03ff03ff03ff03ff03ff03ff03ff03ff03ff03ff03ff03ff03ff03ff03ff03ff03ff03ff03ff03ff03ff03ff03ff03ff,
  0x3ff03ff03ff03ff03ff03ff03ff03ff03ff03ff03ff03ff03ff03ff03ff03ff03ff03ff03ff03ff03ff03ff03ff03ff03ff03ff03ff03ff03ff03ff03ff03ff03ff03ff03ff03ff03ff03ff03ff03ff03ff03ff03ff03ff03ff03ff03ff03ff03ff03ff03ff03ff03ff03ff03ff03ff03ff03ff03ff03ff03ff03ff03ff03ff,
  0x3ff03ff03ff03ff03ff03ff03ff03ff03ff03ff03ff03ff03ff03ff03ff03ff03ff03ff03ff03ff03ff03ff03ff03ff03ff03ff03ff03ff03ff03ff03ff03ff03ff03ff03ff03ff03ff03ff03ff03ff03ff03ff03ff03ff03ff03ff03ff03ff03ff03ff03ff03ff03ff03ff03ff03ff03ff03ff03ff03ff03ff03ff03ff03ff,
  0x400040004000400040004000400040004000400040004000400040003ff03ff03ff03ff03ff03ff03ff03ff03ff03ff03ff03ff03ff03ff03ff03ff03ff03ff03ff03ff03ff03ff03ff03ff03ff03ff03ff03ff03ff03ff03ff03ff03ff03ff03ff03ff03ff03ff03ff03ff03ff03ff03ff03ff03ff03ff03ff03ff03ff03ff]

/-- `op2float` — src/posit12_tbl.cpp:10-11, 64 entries of 32 bits to a literal, the first one in the low bits. -/
def op2floatTab : List Nat := [
  0x377000003760000037500000374000003730000037200000371000003700000036f0000036e0000036d0000036c0000036b0000036a000003690000036800000367000003660000036500000364000003630000036200000361000003600000035f0000035e0000035d0000035c0000035b0000035a0000035900000358000003560000035400000352000003500000034e0000034c0000034a00000348000003460000034400000342000003400000033e0000033c0000033a0000033800000334000003300000032c0000032800000324000003200000031c00000318000003100000030800000300000002f8000002e8000002d8000002b80000000000000,
  0x3978000039700000396800003960000039580000395000003948000039400000393800003930000039280000392000003918000039100000390800003900000038f8000038f0000038e8000038e0000038d8000038d0000038c8000038c0000038b8000038b0000038a8000038a00000389800003890000038880000388000003878000038700000386800003860000038580000385000003848000038400000383800003830000038280000382000003818000038100000380800003800000037f8000037f0000037e8000037e0000037d8000037d0000037c8000037c0000037b8000037b0000037a8000037a0000037980000379000003788000037800000,
  0x3a7c00003a7800003a7400003a7000003a6c00003a6800003a6400003a6000003a5c00003a5800003a5400003a5000003a4c00003a4800003a4400003a4000003a3c00003a3800003a3400003a3000003a2c00003a2800003a2400003a2000003a1c00003a1800003a1400003a1000003a0c00003a0800003a0400003a00000039fc000039f8000039f4000039f0000039ec000039e8000039e4000039e0000039dc000039d8000039d4000039d0000039cc000039c8000039c4000039c0000039bc000039b8000039b4000039b0000039ac000039a8000039a4000039a00000399c0000399800003994000039900000398c0000398800003984000039800000,
  0x3b7c00003b7800003b7400003b7000003b6c00003b6800003b6400003b6000003b5c00003b5800003b5400003b5000003b4c00003b4800003b4400003b4000003b3c00003b3800003b3400003b3000003b2c00003b2800003b2400003b2000003b1c00003b1800003b1400003b1000003b0c00003b0800003b0400003b0000003afc00003af800003af400003af000003aec00003ae800003ae400003ae000003adc00003ad800003ad400003ad000003acc00003ac800003ac400003ac000003abc00003ab800003ab400003ab000003aac00003aa800003aa400003aa000003a9c00003a9800003a9400003a9000003a8c00003a8800003a8400003a800000,
  0x3bfe00003bfc00003bfa00003bf800003bf600003bf400003bf200003bf000003bee00003bec00003bea00003be800003be600003be400003be200003be000003bde00003bdc00003bda00003bd800003bd600003bd400003bd200003bd000003bce00003bcc00003bca00003bc800003bc600003bc400003bc200003bc000003bbe00003bbc00003bba00003bb800003bb600003bb400003bb200003bb000003bae00003bac00003baa00003ba800003ba600003ba400003ba200003ba000003b9e00003b9c00003b9a00003b9800003b9600003b9400003b9200003b9000003b8e00003b8c00003b8a00003b8800003b8600003b8400003b8200003b800000,
  0x3c7e00003c7c00003c7a00003c7800003c7600003c7400003c7200003c7000003c6e00003c6c00003c6a00003c6800003c6600003c6400003c6200003c6000003c5e00003c5c00003c5a00003c5800003c5600003c5400003c5200003c5000003c4e00003c4c00003c4a00003c4800003c4600003c4400003c4200003c4000003c3e00003c3c00003c3a00003c3800003c3600003c3400003c3200003c3000003c2e00003c2c00003c2a00003c2800003c2600003c2400003c2200003c2000003c1e00003c1c00003c1a00003c1800003c1600003c1400003c1200003c1000003c0e00003c0c00003c0a00003c0800003c0600003c0400003c0200003c000000,
  0x3cfe00003cfc00003cfa00003cf800003cf600003cf400003cf200003cf000003cee00003cec00003cea00003ce800003ce600003ce400003ce200003ce000003cde00003cdc00003cda00003cd800003cd600003cd400003cd200003cd000003cce00003ccc00003cca00003cc800003cc600003cc400003cc200003cc000003cbe00003cbc00003cba00003cb800003cb600003cb400003cb200003cb000003cae00003cac00003caa00003ca800003ca600003ca400003ca200003ca000003c9e00003c9c00003c9a00003c9800003c9600003c9400003c9200003c9000003c8e00003c8c00003c8a00003c8800003c8600003c8400003c8200003c800000,
  0x3d7e00003d7c00003d7a00003d7800003d7600003d7400003d7200003d7000003d6e00003d6c00003d6a00003d6800003d6600003d6400003d6200003d6000003d5e00003d5c00003d5a00003d5800003d5600003d5400003d5200003d5000003d4e00003d4c00003d4a00003d4800003d4600003d4400003d4200003d4000003d3e00003d3c00003d3a00003d3800003d3600003d3400003d3200003d3000003d2e00003d2c00003d2a00003d2800003d2600003d2400003d2200003d2000003d1e00003d1c00003d1a00003d1800003d1600003d1400003d1200003d1000003d0e00003d0c00003d0a00003d0800003d0600003d0400003d0200003d000000,
  0x3dbf00003dbe00003dbd00003dbc00003dbb00003dba00003db900003db800003db700003db600003db500003db400003db300003db200003db100003db000003daf00003dae00003dad00003dac00003dab00003daa00003da900003da800003da700003da600003da500003da400003da300003da200003da100003da000003d9f00003d9e00003d9d00003d9c00003d9b00003d9a00003d9900003d9800003d9700003d9600003d9500003d9400003d9300003d9200003d9100003d9000003d8f00003d8e00003d8d00003d8c00003d8b00003d8a00003d8900003d8800003d8700003d8600003d8500003d8400003d8300003d8200003d8100003d800000,
  0x3dff00003dfe00003dfd00003dfc00003dfb00003dfa00003df900003df800003df700003df600003df500003df400003df300003df200003df100003df000003def00003dee00003ded00003dec00003deb00003dea00003de900003de800003de700003de600003de500003de400003de300003de200003de100003de000003ddf00003dde00003ddd00003ddc00003ddb00003dda00003dd900003dd800003dd700003dd600003dd500003dd400003dd300003dd200003dd100003dd000003dcf00003dce00003dcd00003dcc00003dcb00003dca00003dc900003dc800003dc700003dc600003dc500003dc400003dc300003dc200003dc100003dc00000,
  0x3e3f00003e3e00003e3d00003e3c00003e3b00003e3a00003e3900003e3800003e3700003e3600003e3500003e3400003e3300003e3200003e3100003e3000003e2f00003e2e00003e2d00003e2c00003e2b00003e2a00003e2900003e2800003e2700003e2600003e2500003e2400003e2300003e2200003e2100003e2000003e1f00003e1e00003e1d00003e1c00003e1b00003e1a00003e1900003e1800003e1700003e1600003e1500003e1400003e1300003e1200003e1100003e1000003e0f00003e0e00003e0d00003e0c00003e0b00003e0a00003e0900003e0800003e0700003e0600003e0500003e0400003e0300003e0200003e0100003e000000,
  0x3e7f00003e7e00003e7d00003e7c00003e7b00003e7a00003e7900003e7800003e7700003e7600003e7500003e7400003e7300003e7200003e7100003e7000003e6f00003e6e00003e6d00003e6c00003e6b00003e6a00003e6900003e6800003e6700003e6600003e6500003e6400003e6300003e6200003e6100003e6000003e5f00003e5e00003e5d00003e5c00003e5b00003e5a00003e5900003e5800003e5700003e5600003e5500003e5400003e5300003e5200003e5100003e5000003e4f00003e4e00003e4d00003e4c00003e4b00003e4a00003e4900003e4800003e4700003e4600003e4500003e4400003e4300003e4200003e4100003e400000,
  0x3ebf00003ebe00003ebd00003ebc00003ebb00003eba00003eb900003eb800003eb700003eb600003eb500003eb400003eb300003eb200003eb100003eb000003eaf00003eae00003ead00003eac00003eab00003eaa00003ea900003ea800003ea700003ea600003ea500003ea400003ea300003ea200003ea100003ea000003e9f00003e9e00003e9d00003e9c00003e9b00003e9a00003e9900003e9800003e9700003e9600003e9500003e9400003e9300003e9200003e9100003e9000003e8f00003e8e00003e8d00003e8c00003e8b00003e8a00003e8900003e8800003e8700003e8600003e8500003e8400003e8300003e8200003e8100003e800000,
  0x3eff00003efe00003efd00003efc00003efb00003efa00003ef900003ef800003ef700003ef600003ef500003ef400003ef300003ef200003ef100003ef000003eef00003eee00003eed00003eec00003eeb00003eea00003ee900003ee800003ee700003ee600003ee500003ee400003ee300003ee200003ee100003ee000003edf00003ede00003edd00003edc00003edb00003eda00003ed900003ed800003ed700003ed600003ed500003ed400003ed300003ed200003ed100003ed000003ecf00003ece00003ecd00003ecc00003ecb00003eca00003ec900003ec800003ec700003ec600003ec500003ec400003ec300003ec200003ec100003ec00000,
  0x3f3f00003f3e00003f3d00003f3c00003f3b00003f3a00003f3900003f3800003f3700003f3600003f3500003f3400003f3300003f3200003f3100003f3000003f2f00003f2e00003f2d00003f2c00003f2b00003f2a00003f2900003f2800003f2700003f2600003f2500003f2400003f2300003f2200003f2100003f2000003f1f00003f1e00003f1d00003f1c00003f1b00003f1a00003f1900003f1800003f1700003f1600003f1500003f1400003f1300003f1200003f1100003f1000003f0f00003f0e00003f0d00003f0c00003f0b00003f0a00003f0900003f0800003f0700003f0600003f0500003f0400003f0300003f0200003f0100003f000000,
  0x3f7f00003f7e00003f7d00003f7c00003f7b00003f7a00003f7900003f7800003f7700003f7600003f7500003f7400003f7300003f7200003f7100003f7000003f6f00003f6e00003f6d00003f6c00003f6b00003f6a00003f6900003f6800003f6700003f6600003f6500003f6400003f6300003f6200003f6100003f6000003f5f00003f5e00003f5d00003f5c00003f5b00003f5a00003f5900003f5800003f5700003f5600003f5500003f5400003f5300003f5200003f5100003f5000003f4f00003f4e00003f4d00003f4c00003f4b00003f4a00003f4900003f4800003f4700003f4600003f4500003f4400003f4300003f4200003f4100003f400000,
  0x3fbf00003fbe00003fbd00003fbc00003fbb00003fba00003fb900003fb800003fb700003fb600003fb500003fb400003fb300003fb200003fb100003fb000003faf00003fae00003fad00003fac00003fab00003faa00003fa900003fa800003fa700003fa600003fa500003fa400003fa300003fa200003fa100003fa000003f9f00003f9e00003f9d00003f9c00003f9b00003f9a00003f9900003f9800003f9700003f9600003f9500003f9400003f9300003f9200003f9100003f9000003f8f00003f8e00003f8d00003f8c00003f8b00003f8a00003f8900003f8800003f8700003f8600003f8500003f8400003f8300003f8200003f8100003f800000,
  0x3fff00003ffe00003ffd00003ffc00003ffb00003ffa00003ff900003ff800003ff700003ff600003ff500003ff400003ff300003ff200003ff100003ff000003fef00003fee00003fed00003fec00003feb00003fea00003fe900003fe800003fe700003fe600003fe500003fe400003fe300003fe200003fe100003fe000003fdf00003fde00003fdd00003fdc00003fdb00003fda00003fd900003fd800003fd700003fd600003fd500003fd400003fd300003fd200003fd100003fd000003fcf00003fce00003fcd00003fcc00003fcb00003fca00003fc900003fc800003fc700003fc600003fc500003fc400003fc300003fc200003fc100003fc00000,
  0x403f0000403e0000403d0000403c0000403b0000403a000040390000403800004037000040360000403500004034000040330000403200004031000040300000402f0000402e0000402d0000402c0000402b0000402a000040290000402800004027000040260000402500004024000040230000402200004021000040200000401f0000401e0000401d0000401c0000401b0000401a000040190000401800004017000040160000401500004014000040130000401200004011000040100000400f0000400e0000400d0000400c0000400b0000400a000040090000400800004007000040060000400500004004000040030000400200004001000040000000,
  0x407f0000407e0000407d0000407c0000407b0000407a000040790000407800004077000040760000407500004074000040730000407200004071000040700000406f0000406e0000406d0000406c0000406b0000406a000040690000406800004067000040660000406500004064000040630000406200004061000040600000405f0000405e0000405d0000405c0000405b0000405a000040590000405800004057000040560000405500004054000040530000405200004051000040500000404f0000404e0000404d0000404c0000404b0000404a000040490000404800004047000040460000404500004044000040430000404200004041000040400000,
  0x40bf000040be000040bd000040bc000040bb000040ba000040b9000040b8000040b7000040b6000040b5000040b4000040b3000040b2000040b1000040b0000040af000040ae000040ad000040ac000040ab000040aa000040a9000040a8000040a7000040a6000040a5000040a4000040a3000040a2000040a1000040a00000409f0000409e0000409d0000409c0000409b0000409a000040990000409800004097000040960000409500004094000040930000409200004091000040900000408f0000408e0000408d0000408c0000408b0000408a000040890000408800004087000040860000408500004084000040830000408200004081000040800000,
  0x40ff000040fe000040fd000040fc000040fb000040fa000040f9000040f8000040f7000040f6000040f5000040f4000040f3000040f2000040f1000040f0000040ef000040ee000040ed000040ec000040eb000040ea000040e9000040e8000040e7000040e6000040e5000040e4000040e3000040e2000040e1000040e0000040df000040de000040dd000040dc000040db000040da000040d9000040d8000040d7000040d6000040d5000040d4000040d3000040d2000040d1000040d0000040cf000040ce000040cd000040cc000040cb000040ca000040c9000040c8000040c7000040c6000040c5000040c4000040c3000040c2000040c1000040c00000,
  0x413f0000413e0000413d0000413c0000413b0000413a000041390000413800004137000041360000413500004134000041330000413200004131000041300000412f0000412e0000412d0000412c0000412b0000412a000041290000412800004127000041260000412500004124000041230000412200004121000041200000411f0000411e0000411d0000411c0000411b0000411a000041190000411800004117000041160000411500004114000041130000411200004111000041100000410f0000410e0000410d0000410c0000410b0000410a000041090000410800004107000041060000410500004104000041030000410200004101000041000000,
  0x417f0000417e0000417d0000417c0000417b0000417a000041790000417800004177000041760000417500004174000041730000417200004171000041700000416f0000416e0000416d0000416c0000416b0000416a000041690000416800004167000041660000416500004164000041630000416200004161000041600000415f0000415e0000415d0000415c0000415b0000415a000041590000415800004157000041560000415500004154000041530000415200004151000041500000414f0000414e0000414d0000414c0000414b0000414a000041490000414800004147000041460000414500004144000041430000414200004141000041400000,
  0x41fe000041fc000041fa000041f8000041f6000041f4000041f2000041f0000041ee000041ec000041ea000041e8000041e6000041e4000041e2000041e0000041de000041dc000041da000041d8000041d6000041d4000041d2000041d0000041ce000041cc000041ca000041c8000041c6000041c4000041c2000041c0000041be000041bc000041ba000041b8000041b6000041b4000041b2000041b0000041ae000041ac000041aa000041a8000041a6000041a4000041a2000041a00000419e0000419c0000419a00004198000041960000419400004192000041900000418e0000418c0000418a00004188000041860000418400004182000041800000,
  0x427e0000427c0000427a00004278000042760000427400004272000042700000426e0000426c0000426a00004268000042660000426400004262000042600000425e0000425c0000425a00004258000042560000425400004252000042500000424e0000424c0000424a00004248000042460000424400004242000042400000423e0000423c0000423a00004238000042360000423400004232000042300000422e0000422c0000422a00004228000042260000422400004222000042200000421e0000421c0000421a00004218000042160000421400004212000042100000420e0000420c0000420a00004208000042060000420400004202000042000000,
  0x42fe000042fc000042fa000042f8000042f6000042f4000042f2000042f0000042ee000042ec000042ea000042e8000042e6000042e4000042e2000042e0000042de000042dc000042da000042d8000042d6000042d4000042d2000042d0000042ce000042cc000042ca000042c8000042c6000042c4000042c2000042c0000042be000042bc000042ba000042b8000042b6000042b4000042b2000042b0000042ae000042ac000042aa000042a8000042a6000042a4000042a2000042a00000429e0000429c0000429a00004298000042960000429400004292000042900000428e0000428c0000428a00004288000042860000428400004282000042800000,
  0x437e0000437c0000437a00004378000043760000437400004372000043700000436e0000436c0000436a00004368000043660000436400004362000043600000435e0000435c0000435a00004358000043560000435400004352000043500000434e0000434c0000434a00004348000043460000434400004342000043400000433e0000433c0000433a00004338000043360000433400004332000043300000432e0000432c0000432a00004328000043260000432400004322000043200000431e0000431c0000431a00004318000043160000431400004312000043100000430e0000430c0000430a00004308000043060000430400004302000043000000,
  0x447c0000447800004474000044700000446c0000446800004464000044600000445c0000445800004454000044500000444c0000444800004444000044400000443c0000443800004434000044300000442c0000442800004424000044200000441c0000441800004414000044100000440c000044080000440400004400000043fc000043f8000043f4000043f0000043ec000043e8000043e4000043e0000043dc000043d8000043d4000043d0000043cc000043c8000043c4000043c0000043bc000043b8000043b4000043b0000043ac000043a8000043a4000043a00000439c0000439800004394000043900000438c0000438800004384000043800000,
  0x457c0000457800004574000045700000456c0000456800004564000045600000455c0000455800004554000045500000454c0000454800004544000045400000453c0000453800004534000045300000452c0000452800004524000045200000451c0000451800004514000045100000450c000045080000450400004500000044fc000044f8000044f4000044f0000044ec000044e8000044e4000044e0000044dc000044d8000044d4000044d0000044cc000044c8000044c4000044c0000044bc000044b8000044b4000044b0000044ac000044a8000044a4000044a00000449c0000449800004494000044900000448c0000448800004484000044800000,
  0x4778000047700000476800004760000047580000475000004748000047400000473800004730000047280000472000004718000047100000470800004700000046f8000046f0000046e8000046e0000046d8000046d0000046c8000046c0000046b8000046b0000046a8000046a00000469800004690000046880000468000004678000046700000466800004660000046580000465000004648000046400000463800004630000046280000462000004618000046100000460800004600000045f8000045f0000045e8000045e0000045d8000045d0000045c8000045c0000045b8000045b0000045a8000045a0000045980000459000004588000045800000,
  0x5380000051800000508000004f8000004f0000004e8000004e0000004d8000004d4000004d0000004cc000004c8000004c4000004c0000004bc000004b8000004b6000004b4000004b2000004b0000004ae000004ac000004aa000004a8000004a6000004a4000004a2000004a00000049e0000049c0000049a0000049800000497000004960000049500000494000004930000049200000491000004900000048f0000048e0000048d0000048c0000048b0000048a000004890000048800000487000004860000048500000484000004830000048200000481000004800000047f0000047e0000047d0000047c0000047b0000047a000004790000047800000,
  0xc7900000c7a00000c7b00000c7c00000c7d00000c7e00000c7f00000c8000000c8100000c8200000c8300000c8400000c8500000c8600000c8700000c8800000c8900000c8a00000c8b00000c8c00000c8d00000c8e00000c8f00000c9000000c9100000c9200000c9300000c9400000c9500000c9600000c9700000c9800000c9a00000c9c00000c9e00000ca000000ca200000ca400000ca600000ca800000caa00000cac00000cae00000cb000000cb200000cb400000cb600000cb800000cbc00000cc000000cc400000cc800000ccc00000cd000000cd400000cd800000ce000000ce800000cf000000cf800000d0800000d1800000d38000007fc00000,
  0xc5880000c5900000c5980000c5a00000c5a80000c5b00000c5b80000c5c00000c5c80000c5d00000c5d80000c5e00000c5e80000c5f00000c5f80000c6000000c6080000c6100000c6180000c6200000c6280000c6300000c6380000c6400000c6480000c6500000c6580000c6600000c6680000c6700000c6780000c6800000c6880000c6900000c6980000c6a00000c6a80000c6b00000c6b80000c6c00000c6c80000c6d00000c6d80000c6e00000c6e80000c6f00000c6f80000c7000000c7080000c7100000c7180000c7200000c7280000c7300000c7380000c7400000c7480000c7500000c7580000c7600000c7680000c7700000c7780000c7800000,
  0xc4840000c4880000c48c0000c4900000c4940000c4980000c49c0000c4a00000c4a40000c4a80000c4ac0000c4b00000c4b40000c4b80000c4bc0000c4c00000c4c40000c4c80000c4cc0000c4d00000c4d40000c4d80000c4dc0000c4e00000c4e40000c4e80000c4ec0000c4f00000c4f40000c4f80000c4fc0000c5000000c5040000c5080000c50c0000c5100000c5140000c5180000c51c0000c5200000c5240000c5280000c52c0000c5300000c5340000c5380000c53c0000c5400000c5440000c5480000c54c0000c5500000c5540000c5580000c55c0000c5600000c5640000c5680000c56c0000c5700000c5740000c5780000c57c0000c5800000,
  0xc3840000c3880000c38c0000c3900000c3940000c3980000c39c0000c3a00000c3a40000c3a80000c3ac0000c3b00000c3b40000c3b80000c3bc0000c3c00000c3c40000c3c80000c3cc0000c3d00000c3d40000c3d80000c3dc0000c3e00000c3e40000c3e80000c3ec0000c3f00000c3f40000c3f80000c3fc0000c4000000c4040000c4080000c40c0000c4100000c4140000c4180000c41c0000c4200000c4240000c4280000c42c0000c4300000c4340000c4380000c43c0000c4400000c4440000c4480000c44c0000c4500000c4540000c4580000c45c0000c4600000c4640000c4680000c46c0000c4700000c4740000c4780000c47c0000c4800000,
  0xc3020000c3040000c3060000c3080000c30a0000c30c0000c30e0000c3100000c3120000c3140000c3160000c3180000c31a0000c31c0000c31e0000c3200000c3220000c3240000c3260000c3280000c32a0000c32c0000c32e0000c3300000c3320000c3340000c3360000c3380000c33a0000c33c0000c33e0000c3400000c3420000c3440000c3460000c3480000c34a0000c34c0000c34e0000c3500000c3520000c3540000c3560000c3580000c35a0000c35c0000c35e0000c3600000c3620000c3640000c3660000c3680000c36a0000c36c0000c36e0000c3700000c3720000c3740000c3760000c3780000c37a0000c37c0000c37e0000c3800000,
  0xc2820000c2840000c2860000c2880000c28a0000c28c0000c28e0000c2900000c2920000c2940000c2960000c2980000c29a0000c29c0000c29e0000c2a00000c2a20000c2a40000c2a60000c2a80000c2aa0000c2ac0000c2ae0000c2b00000c2b20000c2b40000c2b60000c2b80000c2ba0000c2bc0000c2be0000c2c00000c2c20000c2c40000c2c60000c2c80000c2ca0000c2cc0000c2ce0000c2d00000c2d20000c2d40000c2d60000c2d80000c2da0000c2dc0000c2de0000c2e00000c2e20000c2e40000c2e60000c2e80000c2ea0000c2ec0000c2ee0000c2f00000c2f20000c2f40000c2f60000c2f80000c2fa0000c2fc0000c2fe0000c3000000,
  0xc2020000c2040000c2060000c2080000c20a0000c20c0000c20e0000c2100000c2120000c2140000c2160000c2180000c21a0000c21c0000c21e0000c2200000c2220000c2240000c2260000c2280000c22a0000c22c0000c22e0000c2300000c2320000c2340000c2360000c2380000c23a0000c23c0000c23e0000c2400000c2420000c2440000c2460000c2480000c24a0000c24c0000c24e0000c2500000c2520000c2540000c2560000c2580000c25a0000c25c0000c25e0000c2600000c2620000c2640000c2660000c2680000c26a0000c26c0000c26e0000c2700000c2720000c2740000c2760000c2780000c27a0000c27c0000c27e0000c2800000,
  0xc1820000c1840000c1860000c1880000c18a0000c18c0000c18e0000c1900000c1920000c1940000c1960000c1980000c19a0000c19c0000c19e0000c1a00000c1a20000c1a40000c1a60000c1a80000c1aa0000c1ac0000c1ae0000c1b00000c1b20000c1b40000c1b60000c1b80000c1ba0000c1bc0000c1be0000c1c00000c1c20000c1c40000c1c60000c1c80000c1ca0000c1cc0000c1ce0000c1d00000c1d20000c1d40000c1d60000c1d80000c1da0000c1dc0000c1de0000c1e00000c1e20000c1e40000c1e60000c1e80000c1ea0000c1ec0000c1ee0000c1f00000c1f20000c1f40000c1f60000c1f80000c1fa0000c1fc0000c1fe0000c2000000,
  0xc1410000c1420000c1430000c1440000c1450000c1460000c1470000c1480000c1490000c14a0000c14b0000c14c0000c14d0000c14e0000c14f0000c1500000c1510000c1520000c1530000c1540000c1550000c1560000c1570000c1580000c1590000c15a0000c15b0000c15c0000c15d0000c15e0000c15f0000c1600000c1610000c1620000c1630000c1640000c1650000c1660000c1670000c1680000c1690000c16a0000c16b0000c16c0000c16d0000c16e0000c16f0000c1700000c1710000c1720000c1730000c1740000c1750000c1760000c1770000c1780000c1790000c17a0000c17b0000c17c0000c17d0000c17e0000c17f0000c1800000,
  0xc1010000c1020000c1030000c1040000c1050000c1060000c1070000c1080000c1090000c10a0000c10b0000c10c0000c10d0000c10e0000c10f0000c1100000c1110000c1120000c1130000c1140000c1150000c1160000c1170000c1180000c1190000c11a0000c11b0000c11c0000c11d0000c11e0000c11f0000c1200000c1210000c1220000c1230000c1240000c1250000c1260000c1270000c1280000c1290000c12a0000c12b0000c12c0000c12d0000c12e0000c12f0000c1300000c1310000c1320000c1330000c1340000c1350000c1360000c1370000c1380000c1390000c13a0000c13b0000c13c0000c13d0000c13e0000c13f0000c1400000,
  0xc0c10000c0c20000c0c30000c0c40000c0c50000c0c60000c0c70000c0c80000c0c90000c0ca0000c0cb0000c0cc0000c0cd0000c0ce0000c0cf0000c0d00000c0d10000c0d20000c0d30000c0d40000c0d50000c0d60000c0d70000c0d80000c0d90000c0da0000c0db0000c0dc0000c0dd0000c0de0000c0df0000c0e00000c0e10000c0e20000c0e30000c0e40000c0e50000c0e60000c0e70000c0e80000c0e90000c0ea0000c0eb0000c0ec0000c0ed0000c0ee0000c0ef0000c0f00000c0f10000c0f20000c0f30000c0f40000c0f50000c0f60000c0f70000c0f80000c0f90000c0fa0000c0fb0000c0fc0000c0fd0000c0fe0000c0ff0000c1000000,
  0xc0810000c0820000c0830000c0840000c0850000c0860000c0870000c0880000c0890000c08a0000c08b0000c08c0000c08d0000c08e0000c08f0000c0900000c0910000c0920000c0930000c0940000c0950000c0960000c0970000c0980000c0990000c09a0000c09b0000c09c0000c09d0000c09e0000c09f0000c0a00000c0a10000c0a20000c0a30000c0a40000c0a50000c0a60000c0a70000c0a80000c0a90000c0aa0000c0ab0000c0ac0000c0ad0000c0ae0000c0af0000c0b00000c0b10000c0b20000c0b30000c0b40000c0b50000c0b60000c0b70000c0b80000c0b90000c0ba0000c0bb0000c0bc0000c0bd0000c0be0000c0bf0000c0c00000,
  0xc0410000c0420000c0430000c0440000c0450000c0460000c0470000c0480000c0490000c04a0000c04b0000c04c0000c04d0000c04e0000c04f0000c0500000c0510000c0520000c0530000c0540000c0550000c0560000c0570000c0580000c0590000c05a0000c05b0000c05c0000c05d0000c05e0000c05f0000c0600000c0610000c0620000c0630000c0640000c0650000c0660000c0670000c0680000c0690000c06a0000c06b0000c06c0000c06d0000c06e0000c06f0000c0700000c0710000c0720000c0730000c0740000c0750000c0760000c0770000c0780000c0790000c07a0000c07b0000c07c0000c07d0000c07e0000c07f0000c0800000,
  0xc0010000c0020000c0030000c0040000c0050000c0060000c0070000c0080000c0090000c00a0000c00b0000c00c0000c00d0000c00e0000c00f0000c0100000c0110000c0120000c0130000c0140000c0150000c0160000c0170000c0180000c0190000c01a0000c01b0000c01c0000c01d0000c01e0000c01f0000c0200000c0210000c0220000c0230000c0240000c0250000c0260000c0270000c0280000c0290000c02a0000c02b0000c02c0000c02d0000c02e0000c02f0000c0300000c0310000c0320000c0330000c0340000c0350000c0360000c0370000c0380000c0390000c03a0000c03b0000c03c0000c03d0000c03e0000c03f0000c0400000,
  0xbfc10000bfc20000bfc30000bfc40000bfc50000bfc60000bfc70000bfc80000bfc90000bfca0000bfcb0000bfcc0000bfcd0000bfce0000bfcf0000bfd00000bfd10000bfd20000bfd30000bfd40000bfd50000bfd60000bfd70000bfd80000bfd90000bfda0000bfdb0000bfdc0000bfdd0000bfde0000bfdf0000bfe00000bfe10000bfe20000bfe30000bfe40000bfe50000bfe60000bfe70000bfe80000bfe90000bfea0000bfeb0000bfec0000bfed0000bfee0000bfef0000bff00000bff10000bff20000bff30000bff40000bff50000bff60000bff70000bff80000bff90000bffa0000bffb0000bffc0000bffd0000bffe0000bfff0000c0000000,
  0xbf810000bf820000bf830000bf840000bf850000bf860000bf870000bf880000bf890000bf8a0000bf8b0000bf8c0000bf8d0000bf8e0000bf8f0000bf900000bf910000bf920000bf930000bf940000bf950000bf960000bf970000bf980000bf990000bf9a0000bf9b0000bf9c0000bf9d0000bf9e0000bf9f0000bfa00000bfa10000bfa20000bfa30000bfa40000bfa50000bfa60000bfa70000bfa80000bfa90000bfaa0000bfab0000bfac0000bfad0000bfae0000bfaf0000bfb00000bfb10000bfb20000bfb30000bfb40000bfb50000bfb60000bfb70000bfb80000bfb90000bfba0000bfbb0000bfbc0000bfbd0000bfbe0000bfbf0000bfc00000,
  0xbf410000bf420000bf430000bf440000bf450000bf460000bf470000bf480000bf490000bf4a0000bf4b0000bf4c0000bf4d0000bf4e0000bf4f0000bf500000bf510000bf520000bf530000bf540000bf550000bf560000bf570000bf580000bf590000bf5a0000bf5b0000bf5c0000bf5d0000bf5e0000bf5f0000bf600000bf610000bf620000bf630000bf640000bf650000bf660000bf670000bf680000bf690000bf6a0000bf6b0000bf6c0000bf6d0000bf6e0000bf6f0000bf700000bf710000bf720000bf730000bf740000bf750000bf760000bf770000bf780000bf790000bf7a0000bf7b0000bf7c0000bf7d0000bf7e0000bf7f0000bf800000,
  0xbf010000bf020000bf030000bf040000bf050000bf060000bf070000bf080000bf090000bf0a0000bf0b0000bf0c0000bf0d0000bf0e0000bf0f0000bf100000bf110000bf120000bf130000bf140000bf150000bf160000bf170000bf180000bf190000bf1a0000bf1b0000bf1c0000bf1d0000bf1e0000bf1f0000bf200000bf210000bf220000bf230000bf240000bf250000bf260000bf270000bf280000bf290000bf2a0000bf2b0000bf2c0000bf2d0000bf2e0000bf2f0000bf300000bf310000bf320000bf330000bf340000bf350000bf360000bf370000bf380000bf390000bf3a0000bf3b0000bf3c0000bf3d0000bf3e0000bf3f0000bf400000,
  0xbec10000bec20000bec30000bec40000bec50000bec60000bec70000bec80000bec90000beca0000becb0000becc0000becd0000bece0000becf0000bed00000bed10000bed20000bed30000bed40000bed50000bed60000bed70000bed80000bed90000beda0000bedb0000bedc0000bedd0000bede0000bedf0000bee00000bee10000bee20000bee30000bee40000bee50000bee60000bee70000bee80000bee90000beea0000beeb0000beec0000beed0000beee0000beef0000bef00000bef10000bef20000bef30000bef40000bef50000bef60000bef70000bef80000bef90000befa0000befb0000befc0000befd0000befe0000beff0000bf000000,
  0xbe810000be820000be830000be840000be850000be860000be870000be880000be890000be8a0000be8b0000be8c0000be8d0000be8e0000be8f0000be900000be910000be920000be930000be940000be950000be960000be970000be980000be990000be9a0000be9b0000be9c0000be9d0000be9e0000be9f0000bea00000bea10000bea20000bea30000bea40000bea50000bea60000bea70000bea80000bea90000beaa0000beab0000beac0000bead0000beae0000beaf0000beb00000beb10000beb20000beb30000beb40000beb50000beb60000beb70000beb80000beb90000beba0000bebb0000bebc0000bebd0000bebe0000bebf0000bec00000,
  0xbe410000be420000be430000be440000be450000be460000be470000be480000be490000be4a0000be4b0000be4c0000be4d0000be4e0000be4f0000be500000be510000be520000be530000be540000be550000be560000be570000be580000be590000be5a0000be5b0000be5c0000be5d0000be5e0000be5f0000be600000be610000be620000be630000be640000be650000be660000be670000be680000be690000be6a0000be6b0000be6c0000be6d0000be6e0000be6f0000be700000be710000be720000be730000be740000be750000be760000be770000be780000be790000be7a0000be7b0000be7c0000be7d0000be7e0000be7f0000be800000,
  0xbe010000be020000be030000be040000be050000be060000be070000be080000be090000be0a0000be0b0000be0c0000be0d0000be0e0000be0f0000be100000be110000be120000be130000be140000be150000be160000be170000be180000be190000be1a0000be1b0000be1c0000be1d0000be1e0000be1f0000be200000be210000be220000be230000be240000be250000be260000be270000be280000be290000be2a0000be2b0000be2c0000be2d0000be2e0000be2f0000be300000be310000be320000be330000be340000be350000be360000be370000be380000be390000be3a0000be3b0000be3c0000be3d0000be3e0000be3f0000be400000,
  0xbdc10000bdc20000bdc30000bdc40000bdc50000bdc60000bdc70000bdc80000bdc90000bdca0000bdcb0000bdcc0000bdcd0000bdce0000bdcf0000bdd00000bdd10000bdd20000bdd30000bdd40000bdd50000bdd60000bdd70000bdd80000bdd90000bdda0000bddb0000bddc0000bddd0000bdde0000bddf0000bde00000bde10000bde20000bde30000bde40000bde50000bde60000bde70000bde80000bde90000bdea0000bdeb0000bdec0000bded0000bdee0000bdef0000bdf00000bdf10000bdf20000bdf30000bdf40000bdf50000bdf60000bdf70000bdf80000bdf90000bdfa0000bdfb0000bdfc0000bdfd0000bdfe0000bdff0000be000000,
  0xbd810000bd820000bd830000bd840000bd850000bd860000bd870000bd880000bd890000bd8a0000bd8b0000bd8c0000bd8d0000bd8e0000bd8f0000bd900000bd910000bd920000bd930000bd940000bd950000bd960000bd970000bd980000bd990000bd9a0000bd9b0000bd9c0000bd9d0000bd9e0000bd9f0000bda00000bda10000bda20000bda30000bda40000bda50000bda60000bda70000bda80000bda90000bdaa0000bdab0000bdac0000bdad0000bdae0000bdaf0000bdb00000bdb10000bdb20000bdb30000bdb40000bdb50000bdb60000bdb70000bdb80000bdb90000bdba0000bdbb0000bdbc0000bdbd0000bdbe0000bdbf0000bdc00000,
  0xbd020000bd040000bd060000bd080000bd0a0000bd0c0000bd0e0000bd100000bd120000bd140000bd160000bd180000bd1a0000bd1c0000bd1e0000bd200000bd220000bd240000bd260000bd280000bd2a0000bd2c0000bd2e0000bd300000bd320000bd340000bd360000bd380000bd3a0000bd3c0000bd3e0000bd400000bd420000bd440000bd460000bd480000bd4a0000bd4c0000bd4e0000bd500000bd520000bd540000bd560000bd580000bd5a0000bd5c0000bd5e0000bd600000bd620000bd640000bd660000bd680000bd6a0000bd6c0000bd6e0000bd700000bd720000bd740000bd760000bd780000bd7a0000bd7c0000bd7e0000bd800000,
  0xbc820000bc840000bc860000bc880000bc8a0000bc8c0000bc8e0000bc900000bc920000bc940000bc960000bc980000bc9a0000bc9c0000bc9e0000bca00000bca20000bca40000bca60000bca80000bcaa0000bcac0000bcae0000bcb00000bcb20000bcb40000bcb60000bcb80000bcba0000bcbc0000bcbe0000bcc00000bcc20000bcc40000bcc60000bcc80000bcca0000bccc0000bcce0000bcd00000bcd20000bcd40000bcd60000bcd80000bcda0000bcdc0000bcde0000bce00000bce20000bce40000bce60000bce80000bcea0000bcec0000bcee0000bcf00000bcf20000bcf40000bcf60000bcf80000bcfa0000bcfc0000bcfe0000bd000000,
  0xbc020000bc040000bc060000bc080000bc0a0000bc0c0000bc0e0000bc100000bc120000bc140000bc160000bc180000bc1a0000bc1c0000bc1e0000bc200000bc220000bc240000bc260000bc280000bc2a0000bc2c0000bc2e0000bc300000bc320000bc340000bc360000bc380000bc3a0000bc3c0000bc3e0000bc400000bc420000bc440000bc460000bc480000bc4a0000bc4c0000bc4e0000bc500000bc520000bc540000bc560000bc580000bc5a0000bc5c0000bc5e0000bc600000bc620000bc640000bc660000bc680000bc6a0000bc6c0000bc6e0000bc700000bc720000bc740000bc760000bc780000bc7a0000bc7c0000bc7e0000bc800000,
  0xbb820000bb840000bb860000bb880000bb8a0000bb8c0000bb8e0000bb900000bb920000bb940000bb960000bb980000bb9a0000bb9c0000bb9e0000bba00000bba20000bba40000bba60000bba80000bbaa0000bbac0000bbae0000bbb00000bbb20000bbb40000bbb60000bbb80000bbba0000bbbc0000bbbe0000bbc00000bbc20000bbc40000bbc60000bbc80000bbca0000bbcc0000bbce0000bbd00000bbd20000bbd40000bbd60000bbd80000bbda0000bbdc0000bbde0000bbe00000bbe20000bbe40000bbe60000bbe80000bbea0000bbec0000bbee0000bbf00000bbf20000bbf40000bbf60000bbf80000bbfa0000bbfc0000bbfe0000bc000000,
  0xba840000ba880000ba8c0000ba900000ba940000ba980000ba9c0000baa00000baa40000baa80000baac0000bab00000bab40000bab80000babc0000bac00000bac40000bac80000bacc0000bad00000bad40000bad80000badc0000bae00000bae40000bae80000baec0000baf00000baf40000baf80000bafc0000bb000000bb040000bb080000bb0c0000bb100000bb140000bb180000bb1c0000bb200000bb240000bb280000bb2c0000bb300000bb340000bb380000bb3c0000bb400000bb440000bb480000bb4c0000bb500000bb540000bb580000bb5c0000bb600000bb640000bb680000bb6c0000bb700000bb740000bb780000bb7c0000bb800000,
  0xb9840000b9880000b98c0000b9900000b9940000b9980000b99c0000b9a00000b9a40000b9a80000b9ac0000b9b00000b9b40000b9b80000b9bc0000b9c00000b9c40000b9c80000b9cc0000b9d00000b9d40000b9d80000b9dc0000b9e00000b9e40000b9e80000b9ec0000b9f00000b9f40000b9f80000b9fc0000ba000000ba040000ba080000ba0c0000ba100000ba140000ba180000ba1c0000ba200000ba240000ba280000ba2c0000ba300000ba340000ba380000ba3c0000ba400000ba440000ba480000ba4c0000ba500000ba540000ba580000ba5c0000ba600000ba640000ba680000ba6c0000ba700000ba740000ba780000ba7c0000ba800000,
  0xb7880000b7900000b7980000b7a00000b7a80000b7b00000b7b80000b7c00000b7c80000b7d00000b7d80000b7e00000b7e80000b7f00000b7f80000b8000000b8080000b8100000b8180000b8200000b8280000b8300000b8380000b8400000b8480000b8500000b8580000b8600000b8680000b8700000b8780000b8800000b8880000b8900000b8980000b8a00000b8a80000b8b00000b8b80000b8c00000b8c80000b8d00000b8d80000b8e00000b8e80000b8f00000b8f80000b9000000b9080000b9100000b9180000b9200000b9280000b9300000b9380000b9400000b9480000b9500000b9580000b9600000b9680000b9700000b9780000b9800000,
  0xab800000ad800000ae800000af800000b0000000b0800000b1000000b1800000b1c00000b2000000b2400000b2800000b2c00000b3000000b3400000b3800000b3a00000b3c00000b3e00000b4000000b4200000b4400000b4600000b4800000b4a00000b4c00000b4e00000b5000000b5200000b5400000b5600000b5800000b5900000b5a00000b5b00000b5c00000b5d00000b5e00000b5f00000b6000000b6100000b6200000b6300000b6400000b6500000b6600000b6700000b6800000b6900000b6a00000b6b00000b6c00000b6d00000b6e00000b6f00000b7000000b7100000b7200000b7300000b7400000b7500000b7600000b7700000b7800000]

end Verif.Posit12
